import Verif.Model.Postings
import Verif.Lemmas.Codec

/-! The bytes of the postings of a term and what is written for it. -/

namespace Ferret.Post
open Ferret Ferret.Dict

theorem toU_nat (n : Nat) (h : n < 2 ^ 32) : toU 4 (n : Int) = n := by
  unfold toU
  rw [Int.emod_eq_of_lt (by omega) (by omega)]
  rfl

theorem toS_nat (n : Nat) (h : n < 2 ^ 31) : toS 4 n = n := by
  unfold toS
  rw [if_pos (by omega)]

theorem toU_sub (a b : Nat) (h : b ≤ a) (h' : a - b < 2 ^ 32) : toU 4 ((a : Int) - b) = a - b := by
  rw [← toU_nat (a - b) h']
  congr 1
  omega

theorem vint_ne (n : Nat) : 0 < (vint n).length := by
  unfold vint vbytes
  split <;> simp

theorem vint_le (n : Nat) : (vint n).length ≤ 10 := vbytes_length_le 10 n

/-! ### Bytes -/

def encFrq : Nat → List Posting → List Byte
  | _, [] => []
  | last, p :: ps => frqBytes last p ++ encFrq p.doc ps

def encPrx : List Posting → List Byte
  | [] => []
  | p :: ps => prxBytes 0 p.occ ++ encPrx ps

def lastDoc : Nat → List Posting → Nat
  | last, [] => last
  | _, p :: ps => lastDoc p.doc ps

theorem encFrq_append : ∀ (a b : List Posting) (last : Nat), encFrq last (a ++ b) = encFrq last a ++ encFrq (lastDoc last a) b := by
  intro a
  induction a with
  | nil => intros; rfl
  | cons p a ih => intro b last; simp only [List.cons_append, encFrq, lastDoc, ih, List.append_assoc]

theorem encPrx_append : ∀ (a b : List Posting), encPrx (a ++ b) = encPrx a ++ encPrx b := by
  intro a
  induction a with
  | nil => intros; rfl
  | cons p a ih => intro b; simp only [List.cons_append, encPrx, ih, List.append_assoc]

theorem lastDoc_append : ∀ (a b : List Posting) (last : Nat), lastDoc last (a ++ b) = lastDoc (lastDoc last a) b := by
  intro a
  induction a with
  | nil => intros; rfl
  | cons p a ih => intro b last; simp only [List.cons_append, lastDoc, ih]

/-- The document before the one of number `c`; bytes before it. -/
def D (ps : List Posting) (c : Nat) : Nat := lastDoc 0 (ps.take c)
def F (ps : List Posting) (c : Nat) : Nat := (encFrq 0 (ps.take c)).length
def P (ps : List Posting) (c : Nat) : Nat := (encPrx (ps.take c)).length

theorem D_zero (ps : List Posting) : D ps 0 = 0 := rfl
theorem F_zero (ps : List Posting) : F ps 0 = 0 := rfl
theorem P_zero (ps : List Posting) : P ps 0 = 0 := rfl

theorem D_succ {ps : List Posting} {c : Nat} {p : Posting} (h : ps[c]? = some p) : D ps (c + 1) = p.doc := by
  unfold D
  rw [List.take_add_one, h, lastDoc_append]
  rfl

theorem F_succ {ps : List Posting} {c : Nat} {p : Posting} (h : ps[c]? = some p) : F ps (c + 1) = F ps c + (frqBytes (D ps c) p).length := by
  unfold F D
  rw [List.take_add_one, h, encFrq_append, List.length_append]
  simp [encFrq]

theorem P_succ {ps : List Posting} {c : Nat} {p : Posting} (h : ps[c]? = some p) : P ps (c + 1) = P ps c + (prxBytes 0 p.occ).length := by
  unfold P
  rw [List.take_add_one, h, encPrx_append, List.length_append]
  simp [encPrx]

theorem frqBytes_ne (l : Nat) (p : Posting) : 0 < (frqBytes l p).length := by
  unfold frqBytes
  dsimp only
  split
  · exact vint_ne _
  · rw [List.length_append]; have := vint_ne (toU 4 (((p.doc : Int) - l) * 2)); omega

theorem F_mono (ps : List Posting) : ∀ {a b : Nat}, a ≤ b → F ps a ≤ F ps b := by
  intro a b h
  obtain ⟨k, rfl⟩ := Nat.exists_eq_add_of_le h
  induction k with
  | zero => exact Nat.le_refl _
  | succ k ih =>
    refine Nat.le_trans (ih (by omega)) ?_
    cases hp : ps[a + k]? with
    | some p => rw [show a + (k + 1) = a + k + 1 by omega, F_succ hp]; omega
    | none =>
      unfold F
      rw [List.getElem?_eq_none_iff] at hp
      rw [List.take_of_length_le (by omega), List.take_of_length_le (by omega)]
      exact Nat.le_refl _

theorem P_mono (ps : List Posting) : ∀ {a b : Nat}, a ≤ b → P ps a ≤ P ps b := by
  intro a b h
  obtain ⟨k, rfl⟩ := Nat.exists_eq_add_of_le h
  induction k with
  | zero => exact Nat.le_refl _
  | succ k ih =>
    refine Nat.le_trans (ih (by omega)) ?_
    cases hp : ps[a + k]? with
    | some p => rw [show a + (k + 1) = a + k + 1 by omega, P_succ hp]; omega
    | none =>
      unfold P
      rw [List.getElem?_eq_none_iff] at hp
      rw [List.take_of_length_le (by omega), List.take_of_length_le (by omega)]
      exact Nat.le_refl _

theorem F_lt (ps : List Posting) {a b : Nat} (h : a < b) (hb : b ≤ ps.length) : F ps a < F ps b := by
  have hp : ps[a]? = some ps[a] := List.getElem?_eq_getElem (by omega)
  have h1 := F_succ hp
  have h2 := frqBytes_ne (D ps a) ps[a]
  have h3 := F_mono ps (show a + 1 ≤ b by omega)
  omega

/-- The postings of a term can be written. -/
structure PsOK (ps : List Posting) : Prop where
  asc : ps.Pairwise fun a b => a.doc < b.doc
  docLt : ∀ p ∈ ps, p.doc < 2 ^ 30
  freq : ∀ p ∈ ps, p.freq = p.occ.length ∧ 0 < p.freq ∧ p.freq < 2 ^ 31
  occ : ∀ p ∈ ps, ∀ x ∈ p.occ, -1 ≤ x ∧ x < 2 ^ 31
  len : ps.length < 2 ^ 31
  frqLt : (encFrq 0 ps).length < 2 ^ 32
  prxLt : (encPrx ps).length < 2 ^ 32

theorem D_lt {ps : List Posting} (h : PsOK ps) {a b : Nat} (hab : a < b) (hb : b ≤ ps.length) (ha : 0 < a) : D ps a < D ps b := by
  obtain ⟨a, rfl⟩ : ∃ k, a = k + 1 := ⟨a - 1, by omega⟩
  obtain ⟨b, rfl⟩ : ∃ k, b = k + 1 := ⟨b - 1, by omega⟩
  rw [D_succ (List.getElem?_eq_getElem (show a < ps.length by omega)), D_succ (List.getElem?_eq_getElem (show b < ps.length by omega))]
  exact List.pairwise_iff_getElem.1 h.asc a b (by omega) (by omega) (by omega)

theorem D_le {ps : List Posting} (h : PsOK ps) {a b : Nat} (hab : a ≤ b) (hb : b ≤ ps.length) : D ps a ≤ D ps b := by
  by_cases ha : a = 0
  · subst ha; rw [D_zero]; omega
  · by_cases h' : a = b
    · rw [h']; exact Nat.le_refl _
    · exact Nat.le_of_lt (D_lt h (by omega) hb (by omega))

theorem D_lt_max {ps : List Posting} (h : PsOK ps) (c : Nat) : D ps c < 2 ^ 30 := by
  unfold D
  have : ∀ (l : List Posting) (last : Nat), last < 2 ^ 30 → (∀ p ∈ l, p.doc < 2 ^ 30) → lastDoc last l < 2 ^ 30 := by
    intro l
    induction l with
    | nil => intro last h _; exact h
    | cons p l ih => intro last _ h; exact ih p.doc (h p (List.mem_cons_self ..)) fun q hq => h q (List.mem_cons_of_mem _ hq)
  exact this _ 0 (by decide) fun p hp => h.docLt p (List.mem_of_mem_take hp)

theorem F_le_all (ps : List Posting) (c : Nat) : F ps c ≤ (encFrq 0 ps).length := by
  have h := F_mono ps (show min c ps.length ≤ ps.length by omega)
  have e : F ps c = F ps (min c ps.length) := by
    unfold F
    by_cases hc : c ≤ ps.length
    · rw [Nat.min_eq_left hc]
    · rw [Nat.min_eq_right (by omega), List.take_of_length_le (by omega), List.take_of_length_le (Nat.le_refl _)]
  rw [e]
  refine Nat.le_trans h ?_
  unfold F
  rw [List.take_of_length_le (Nat.le_refl _)]
  exact Nat.le_refl _

theorem P_le_all (ps : List Posting) (c : Nat) : P ps c ≤ (encPrx ps).length := by
  have h := P_mono ps (show min c ps.length ≤ ps.length by omega)
  have e : P ps c = P ps (min c ps.length) := by
    unfold P
    by_cases hc : c ≤ ps.length
    · rw [Nat.min_eq_left hc]
    · rw [Nat.min_eq_right (by omega), List.take_of_length_le (by omega), List.take_of_length_le (Nat.le_refl _)]
  rw [e]
  refine Nat.le_trans h ?_
  unfold P
  rw [List.take_of_length_le (Nat.le_refl _)]
  exact Nat.le_refl _

/-! ### Skip data -/

/-- The entry of number `j + 1` is for the documents before the one of number `(j + 1) * si - 1`. -/
def entry (ps : List Posting) (si j : Nat) : List Byte :=
  vint (D ps ((j + 1) * si - 1) - D ps (j * si - 1)) ++ (vint (F ps ((j + 1) * si - 1) - F ps (j * si - 1)) ++ vint (P ps ((j + 1) * si - 1) - P ps (j * si - 1)))

/-- The `k` entries after the first `j`. -/
def encSkip (ps : List Posting) (si : Nat) : Nat → Nat → List Byte
  | _, 0 => []
  | j, k + 1 => entry ps si j ++ encSkip ps si (j + 1) k

theorem encSkip_append (ps : List Posting) (si : Nat) : ∀ (a b j : Nat), encSkip ps si j (a + b) = encSkip ps si j a ++ encSkip ps si (j + a) b := by
  intro a
  induction a with
  | zero => intro b j; simp [encSkip]
  | succ a ih =>
    intro b j
    rw [show a + 1 + b = a + b + 1 by omega]
    simp only [encSkip, ih, List.append_assoc]
    rw [show j + 1 + a = j + (a + 1) by omega]

theorem encSkip_succ (ps : List Posting) (si k : Nat) : encSkip ps si 0 (k + 1) = encSkip ps si 0 k ++ entry ps si k := by
  rw [encSkip_append]
  simp [encSkip]

/-! ### Writing -/

theorem div_step {c si : Nat} (h : 0 < si) : ((c + 1) % si = 0 → (c + 1) / si = c / si + 1 ∧ (c / si + 1) * si = c + 1) ∧ ((c + 1) % si ≠ 0 → (c + 1) / si = c / si) := by
  have h1 := Nat.div_add_mod c si
  have h2 := Nat.mod_lt c h
  have h3 : (c / si + 1) * si = si * (c / si) + si := by grind
  constructor
  · intro h0
    have h4 : (c + 1) / si = c / si + 1 := by
      rw [Nat.div_eq_iff h]
      have h5 := Nat.div_add_mod (c + 1) si
      have h6 : c / si ≤ (c + 1) / si := Nat.div_le_div_right (by omega)
      by_cases he : (c + 1) / si = c / si
      · rw [he] at h5; omega
      · have h7 : si * (c / si + 1) ≤ si * ((c + 1) / si) := Nat.mul_le_mul_left _ (by omega)
        have : si * (c / si + 1) = si * (c / si) + si := by grind
        have h8 : (c / si + 1) * si = si * (c / si) + si := by grind
        omega
    refine ⟨h4, ?_⟩
    have h5 := Nat.div_add_mod (c + 1) si
    rw [h4] at h5
    have : si * (c / si + 1) = (c / si + 1) * si := Nat.mul_comm _ _
    omega
  · intro h0
    rw [Nat.div_eq_iff h]
    have h5 := Nat.div_add_mod (c + 1) si
    have h8 : c % si + 1 ≠ si := by
      intro he
      apply h0
      have : c + 1 = si * (c / si + 1) := by
        have : si * (c / si + 1) = si * (c / si) + si := by grind
        omega
      rw [this]
      exact Nat.mul_mod_right _ _
    have : c / si * si = si * (c / si) := Nat.mul_comm _ _
    omega

theorem postLoop_spec {ps : List Posting} (hok : PsOK ps) (si : Nat) (hsi : 0 < si) (frq prx : List Byte) : ∀ (qs : List Posting) (c : Nat), c ≤ ps.length → ps.drop c = qs →
    postLoop si c (D ps c) ⟨encSkip ps si 0 (c / si), D ps (c / si * si - 1), frq.length + F ps (c / si * si - 1), prx.length + P ps (c / si * si - 1)⟩
      (frq ++ encFrq 0 (ps.take c)) (prx ++ encPrx (ps.take c)) qs =
    (ps.length, ⟨encSkip ps si 0 (ps.length / si), D ps (ps.length / si * si - 1), frq.length + F ps (ps.length / si * si - 1), prx.length + P ps (ps.length / si * si - 1)⟩,
      frq ++ encFrq 0 ps, prx ++ encPrx ps) := by
  intro qs
  induction qs with
  | nil =>
    intro c hc hd
    have : c = ps.length := by
      have := congrArg List.length hd
      rw [List.length_drop] at this
      simp only [List.length_nil] at this
      omega
    subst this
    rw [List.take_of_length_le (Nat.le_refl _)]
    rfl
  | cons p qs ih =>
    intro c hc hd
    have hp : ps[c]? = some p := by
      have := congrArg (·[0]?) hd
      rw [List.getElem?_drop] at this
      simpa using this
    have hlt : c < ps.length := (List.getElem?_eq_some_iff.1 hp).1
    have hd' : ps.drop (c + 1) = qs := by
      rw [← List.drop_drop, hd]; rfl
    have e1 : frq ++ encFrq 0 (ps.take c) ++ frqBytes (D ps c) p = frq ++ encFrq 0 (ps.take (c + 1)) := by
      rw [List.take_add_one, hp, encFrq_append, List.append_assoc]
      simp [encFrq, D]
    have e2 : prx ++ encPrx (ps.take c) ++ prxBytes 0 p.occ = prx ++ encPrx (ps.take (c + 1)) := by
      rw [List.take_add_one, hp, encPrx_append, List.append_assoc]
      simp [encPrx]
    have e3 : D ps (c + 1) = p.doc := D_succ hp
    have := ih (c + 1) (by omega) hd'
    unfold postLoop
    dsimp only
    rw [e1, e2, ← e3, ← this]
    congr 1
    obtain ⟨d1, d2⟩ := div_step (c := c) hsi
    by_cases hm : (c + 1) % si = 0
    · rw [if_pos hm]
      obtain ⟨d3, d4⟩ := d1 hm
      rw [d3, encSkip_succ]
      unfold skipAdd entry
      dsimp only
      rw [d4, show c + 1 - 1 = c by omega]
      have hle : c / si * si - 1 ≤ c := by
        have := Nat.div_mul_le_self c si
        omega
      have f1 := F_mono ps hle
      have p1 := P_mono ps hle
      have d5 := D_le hok hle (by omega)
      have d6 := D_lt_max hok c
      have f2 := F_le_all ps c
      have p2 := P_le_all ps c
      have f3 := hok.frqLt
      have p3 := hok.prxLt
      rw [toU_sub _ _ d5 (by omega), toU_sub _ _ (by rw [List.length_append]; show _ ≤ frq.length + F ps c; omega) (by rw [List.length_append]; show frq.length + F ps c - _ < _; omega),
        toU_sub _ _ (by rw [List.length_append]; show _ ≤ prx.length + P ps c; omega) (by rw [List.length_append]; show prx.length + P ps c - _ < _; omega)]
      simp only [List.length_append]
      rw [show frq.length + (encFrq 0 (ps.take c)).length - (frq.length + F ps (c / si * si - 1)) = F ps c - F ps (c / si * si - 1) by show frq.length + F ps c - _ = _; omega,
        show prx.length + (encPrx (ps.take c)).length - (prx.length + P ps (c / si * si - 1)) = P ps c - P ps (c / si * si - 1) by show prx.length + P ps c - _ = _; omega]
      rfl
    · rw [if_neg hm, d2 hm]

/-- What is written for a term. -/
theorem flushTerm_spec {ps : List Posting} (hok : PsOK ps) (si : Nat) (hsi : 0 < si) (frq prx : List Byte) :
    flushTerm si frq prx ps = (frq ++ (encFrq 0 ps ++ encSkip ps si 0 (ps.length / si)), prx ++ encPrx ps, ⟨ps.length, frq.length, prx.length, (encFrq 0 ps).length⟩) := by
  have := postLoop_spec hok si hsi frq prx ps 0 (by omega) rfl
  unfold flushTerm skipReset
  simp only [Nat.zero_div, Nat.zero_mul, List.take_zero, encFrq, encPrx, encSkip, D_zero, F_zero, P_zero, Nat.zero_sub, List.append_nil, Nat.add_zero] at this
  rw [this]
  simp only [List.append_assoc, List.length_append]
  congr 3
  omega

end Ferret.Post
