import Verif.Model.Expand
import Verif.Lemmas.PriorityQueue
import Verif.Lemmas.BitVector
import Verif.Spec.Bag
import Verif.Spec.Strings

namespace Ferret.Expand
open Ferret Ferret.Spec

/-! ### Order of strings -/

theorem strLt_iff : ∀ (s t : Term), strLt s t = true ↔ s < t
  | [], [] => by simp [strLt]
  | [], _ :: _ => by simp [strLt]
  | _ :: _, [] => by simp [strLt]
  | x :: s, y :: t => by
    rw [strLt, List.cons_lt_cons_iff, ← strLt_iff s t]
    split
    · rename_i h; subst h; simp
    · rename_i h; simp [h]

theorem strLt_irrefl (s : Term) : strLt s s = false := by
  induction s with
  | nil => rfl
  | cons x s ih => simp [strLt, ih]

theorem strLt_asymm : ∀ (s t : Term), strLt s t = true → strLt t s = false
  | [], [], h => by simp [strLt] at h
  | [], _ :: _, _ => rfl
  | _ :: _, [], h => by simp [strLt] at h
  | x :: s, y :: t, h => by
    rw [strLt] at h ⊢
    split at h
    · rename_i e; subst e; rw [if_pos rfl]; exact strLt_asymm s t h
    · rename_i e
      rw [if_neg (fun e' => e e'.symm)]
      simp only [decide_eq_true_eq] at h
      rw [decide_eq_false_iff_not]
      rw [UInt8.lt_iff_toNat_lt] at *
      omega

theorem strLt_total : ∀ (s t : Term), strLt s t = false → strLt t s = false → s = t
  | [], [], _, _ => rfl
  | [], _ :: _, h, _ => by simp [strLt] at h
  | _ :: _, [], _, h => by simp [strLt] at h
  | x :: s, y :: t, h, h' => by
    rw [strLt] at h h'
    by_cases e : x = y
    · subst e
      rw [if_pos rfl] at h h'
      rw [strLt_total s t h h']
    · rw [if_neg e] at h
      rw [if_neg (fun e' => e e'.symm)] at h'
      rw [decide_eq_false_iff_not, UInt8.lt_iff_toNat_lt] at *
      exact absurd (UInt8.toNat_inj.1 (by omega)) e

theorem strLt_trans : ∀ (s t u : Term), strLt s t = true → strLt t u = true → strLt s u = true
  | [], [], _, h, _ => by simp [strLt] at h
  | _ :: _, [], _, h, _ => by simp [strLt] at h
  | [], _ :: _, [], _, h => by simp [strLt] at h
  | [], _ :: _, _ :: _, _, _ => rfl
  | _ :: _, _ :: _, [], _, h => by simp [strLt] at h
  | x :: s, y :: t, z :: u, h, h' => by
    rw [strLt] at h h' ⊢
    by_cases e : x = y
    · subst e
      rw [if_pos rfl] at h
      split at h'
      · rename_i e'; rw [if_pos e']; exact strLt_trans s t u h h'
      · rename_i e'; rw [if_neg e']; exact h'
    · rw [if_neg e, decide_eq_true_eq, UInt8.lt_iff_toNat_lt] at h
      split at h'
      · rename_i e'
        subst e'
        rw [if_neg e, decide_eq_true_eq, UInt8.lt_iff_toNat_lt]
        exact h
      · rw [decide_eq_true_eq, UInt8.lt_iff_toNat_lt] at h'
        rw [if_neg (fun e' => by subst e'; omega), decide_eq_true_eq, UInt8.lt_iff_toNat_lt]
        omega

theorem strLt_negTrans (a b c : Term) (h1 : strLt a b = false) (h2 : strLt b c = false) : strLt a c = false := by
  cases h : strLt a c with
  | false => rfl
  | true =>
    cases hba : strLt b a with
    | true => have := strLt_trans _ _ _ hba h; rw [this] at h2; cases h2
    | false => have := strLt_total _ _ h1 hba; subst this; rw [h] at h2; cases h2

theorem boostedLt_weak : StrictWeak boostedLt := by
  constructor
  · intro a b h
    unfold boostedLt at *
    split at h
    · rename_i e; rw [if_pos e.symm]; exact strLt_asymm _ _ h
    · rename_i e; rw [if_neg (fun e' => e e'.symm)]; simp only [decide_eq_true_eq] at h; simp only [decide_eq_false_iff_not]; omega
  · intro a b c h1 h2
    unfold boostedLt at *
    split at h1
    · rename_i e
      split at h2
      · rename_i e2
        rw [if_pos (e.trans e2)]
        exact strLt_negTrans _ _ _ h1 h2
      · rename_i e2
        rw [if_neg (fun h => e2 (e.symm.trans h)), e]
        exact h2
    · rename_i e
      simp only [decide_eq_false_iff_not] at h1
      split at h2
      · rename_i e2
        rw [if_neg (fun h => e (h.trans e2.symm)), decide_eq_false_iff_not]
        omega
      · rename_i e2
        simp only [decide_eq_false_iff_not] at h2
        rw [if_neg (by omega), decide_eq_false_iff_not]
        omega

/-! ### Prefixes in a sorted list -/

theorem strncmpEq_iff : ∀ (t p : Term), strncmpEq t p = true ↔ p <+: t
  | t, [] => by simp [strncmpEq]
  | [], _ :: _ => by simp [strncmpEq]
  | x :: t, y :: p => by
    rw [strncmpEq, Bool.and_eq_true, beq_iff_eq, strncmpEq_iff t p, List.cons_prefix_cons]
    exact ⟨fun h => ⟨h.1.symm, h.2⟩, fun h => ⟨h.1.symm, h.2⟩⟩

theorem prefix_not_lt : ∀ (t p : Term), strncmpEq t p = true → strLt t p = false
  | [], [], _ => rfl
  | _ :: _, [], _ => rfl
  | [], _ :: _, h => by simp [strncmpEq] at h
  | x :: t, y :: p, h => by
    rw [strncmpEq, Bool.and_eq_true, beq_iff_eq] at h
    rw [strLt, if_pos h.1]
    exact prefix_not_lt t p h.2

/-- Past the prefix: not less than it, and not beginning with it. -/
theorem past_prefix : ∀ (p x y : Term), strLt x p = false → strncmpEq x p = false → strLt x y = true → strncmpEq y p = false
  | [], x, _, _, h, _ => by cases x <;> simp [strncmpEq] at h
  | _ :: _, [], _, h, _, _ => by simp [strLt] at h
  | _ :: _, _ :: _, [], _, _, h => by simp [strLt] at h
  | c :: p, x :: s, y :: t, h1, h2, h3 => by
    rw [strLt] at h1 h3
    rw [strncmpEq] at h2 ⊢
    by_cases hx : x = c
    · subst hx
      rw [if_pos rfl] at h1
      simp only [beq_self_eq_true, Bool.true_and] at h2
      split at h3
      · rename_i e; subst e
        rw [past_prefix p s t h1 h2 h3]; simp
      · rename_i e
        have : y ≠ x := fun h => e h.symm
        simp [this]
    · rw [if_neg hx] at h1
      rw [decide_eq_false_iff_not, UInt8.lt_iff_toNat_lt] at h1
      have hne : x.toNat ≠ c.toNat := fun h => hx (UInt8.toNat_inj.1 h)
      have : y ≠ c := by
        rintro rfl
        split at h3
        · rename_i e; exact hx e
        · rw [decide_eq_true_eq, UInt8.lt_iff_toNat_lt] at h3; omega
      simp [this]

/-- In a sorted list, the terms with a prefix are those from the prefix on, as long as they have it. -/
theorem takeWhile_prefix (p : Term) : ∀ (terms : List Term), terms.Pairwise (fun a b => strLt a b = true) →
    (termsFrom terms p).takeWhile (fun t => strncmpEq t p) = terms.filter fun t => strncmpEq t p := by
  have aux : ∀ (terms : List Term), terms.Pairwise (fun a b => strLt a b = true) → (∀ t ∈ terms, strLt t p = false) →
      terms.takeWhile (fun t => strncmpEq t p) = terms.filter fun t => strncmpEq t p := by
    intro terms
    induction terms with
    | nil => intros; rfl
    | cons t ts ih =>
      intro hs hge
      rw [List.pairwise_cons] at hs
      cases ht : strncmpEq t p with
      | true =>
        rw [List.takeWhile_cons_of_pos (p := fun t => strncmpEq t p) ht, List.filter_cons_of_pos (p := fun t => strncmpEq t p) ht, ih hs.2 fun x hx => hge x (List.mem_cons_of_mem _ hx)]
      | false =>
        rw [List.takeWhile_cons_of_neg (by simp [ht]), List.filter_cons_of_neg (by simp [ht])]
        symm
        rw [List.filter_eq_nil_iff]
        intro y hy
        rw [past_prefix p t y (hge t (List.mem_cons_self ..)) ht (hs.1 y hy)]
        simp
  intro terms
  induction terms with
  | nil => intro _; rfl
  | cons t ts ih =>
    intro hs
    unfold termsFrom at *
    cases hlt : strLt t p with
    | true =>
      rw [List.dropWhile_cons_of_pos (p := fun x => strLt x p) hlt, List.filter_cons_of_neg, ih (List.pairwise_cons.1 hs).2]
      intro h
      rw [prefix_not_lt t p h] at hlt
      cases hlt
    | false =>
      rw [List.dropWhile_cons_of_neg (by simp [hlt])]
      apply aux _ hs
      intro x hx
      rcases List.mem_cons.1 hx with rfl | hx
      · exact hlt
      · cases h : strLt x p with
        | false => rfl
        | true => have := strLt_trans _ _ _ ((List.pairwise_cons.1 hs).1 x hx) h; rw [this] at hlt; cases hlt

/-! ### Adding terms -/

def addAll : MTQ → List (Term × Int) → Res MTQ
  | q, [] => .ok q
  | q, (t, b) :: l => mtqAdd q t b >>= fun q => addAll q l

/-- What has been kept of `seen` (the terms that are not empty and above the minimum). -/
structure Kept (q : MTQ) (k : Nat) (min0 : Int) (seen rest : List (Term × Int)) : Prop where
  inv : PQ.Inv boostedLt q.terms
  capa : q.terms.capa = k
  perm : (q.terms.heap ++ rest).Perm seen
  best : ∀ a ∈ q.terms.heap, ∀ b ∈ rest, b.2 ≤ a.2
  len : q.terms.heap.length = Min.min k seen.length
  above : ∀ a ∈ seen, min0 < a.2
  min : (q.terms.heap.length < k ∧ q.minBoost = min0) ∨ (q.terms.heap.length = k ∧ (∃ t, q.terms.heap.head? = some t ∧ q.minBoost = t.2) ∧ ∀ a ∈ q.terms.heap, q.minBoost ≤ a.2)

theorem top_least {q : PQ.PQ (Term × Int)} (h : PQ.Inv boostedLt q) {t : Term × Int} (ht : q.heap.head? = some t) : ∀ a ∈ q.heap, t.2 ≤ a.2 := by
  obtain ⟨x, q', -, -, -, -, h5, h6⟩ := PQ.pop_spec boostedLt_weak q h (by intro e; rw [e] at ht; cases ht)
  unfold PQ.top at h5
  rw [ht] at h5
  cases h5
  intro a ha
  have := h6 a ha
  unfold boostedLt at this
  split at this
  · omega
  · rw [decide_eq_false_iff_not] at this; omega

theorem mtqAdd_kept {q : MTQ} {k : Nat} {min0 : Int} {seen rest : List (Term × Int)} (hk : 0 < k) (h : Kept q k min0 seen rest) (t : Term) (b : Int) :
    ∃ q' rest', mtqAdd q t b = .ok q' ∧ q'.boost = q.boost ∧ Kept q' k min0 (seen ++ [(t, b)].filter fun x => decide (min0 < x.2 ∧ x.1 ≠ [])) rest' := by
  have hmin0 : min0 ≤ q.minBoost := by
    rcases h.min with ⟨-, e⟩ | ⟨-, ⟨t, ht, e⟩, -⟩
    · omega
    · have hm : t ∈ seen := h.perm.mem_iff.1 (List.mem_append_left _ (List.mem_of_mem_head? (by rw [ht]; exact rfl)))
      have := h.above t hm
      omega
  unfold mtqAdd
  by_cases hadd : q.minBoost < b ∧ t ≠ []
  · rw [if_pos hadd]
    have hfilt : ([(t, b)].filter fun x => decide (min0 < x.2 ∧ x.1 ≠ [])) = [(t, b)] := by
      rw [List.filter_cons_of_pos (by simp only [decide_eq_true_eq]; exact ⟨by omega, hadd.2⟩), List.filter_nil]
    rw [hfilt]
    obtain ⟨p', i, o, e1, e2, e3, e4⟩ := PQ.insert_spec boostedLt_weak q.terms (t, b) h.inv
    rw [e1, Res.ok_bind]
    dsimp only
    have hcap : p'.capa = k := by rw [e3, h.capa]
    have habove : ∀ a ∈ seen ++ [(t, b)], min0 < a.2 := by
      intro a ha
      rcases List.mem_append.1 ha with ha | ha
      · exact h.above a ha
      · simp only [List.mem_singleton] at ha; subst ha; dsimp only; omega
    have hlen := h.perm.length_eq
    simp only [List.length_append] at hlen
    have key : ∃ rest', (p'.heap ++ rest').Perm (seen ++ [(t, b)]) ∧ (∀ a ∈ p'.heap, ∀ c ∈ rest', c.2 ≤ a.2) ∧ p'.heap.length = min k (seen ++ [(t, b)]).length := by
      rcases e4 with ⟨hr, -, -, hp⟩ | ⟨hf, d, -, hp, hl, hd, -, -⟩
      · rw [h.capa] at hr
        have hrest : rest = [] := List.length_eq_zero_iff.1 (by have := h.len; omega)
        subst hrest
        refine ⟨[], ?_, fun a _ c hc => (nomatch hc), ?_⟩
        · rw [List.append_nil]
          have := h.perm
          rw [List.append_nil] at this
          exact hp.trans ((this.cons (t, b)).trans (List.perm_append_comm (l₁ := [(t, b)])))
        · rw [hp.length_eq, List.length_append, List.length_cons]; have := h.len; simp; omega
      · rw [h.capa] at hf
        refine ⟨d :: rest, ?_, ?_, ?_⟩
        · have a1 : (p'.heap ++ d :: rest).Perm (d :: p'.heap ++ rest) := by
            simpa using (List.perm_middle (a := d) (l₁ := p'.heap) (l₂ := rest))
          have a2 : (d :: p'.heap ++ rest).Perm ((t, b) :: q.terms.heap ++ rest) := List.Perm.append_right rest hp
          exact a1.trans (a2.trans (by simpa using (h.perm.cons (t, b)).trans (List.perm_append_comm (l₁ := [(t, b)]) (l₂ := seen))))
        · intro a ha c hc
          have hda : d.2 ≤ a.2 := by
            have := hd a ha
            unfold boostedLt at this
            split at this
            · omega
            · rw [decide_eq_false_iff_not] at this; omega
          rcases List.mem_cons.1 hc with rfl | hc
          · exact hda
          · have ha' : a ∈ (t, b) :: q.terms.heap := hp.mem_iff.1 (List.mem_cons_of_mem _ ha)
            rcases List.mem_cons.1 ha' with rfl | ha'
            · -- the new term is above the least boost kept so far
              rcases h.min with ⟨hlt, -⟩ | ⟨-, ⟨top, ht, e⟩, -⟩
              · omega
              · have := h.best top (List.mem_of_mem_head? (by rw [ht]; exact rfl)) c hc
                have := hadd.1
                dsimp only
                omega
            · exact h.best a ha' c hc
        · rw [hl, h.len]; simp; omega
    obtain ⟨rest', k1, k2, k3⟩ := key
    split
    · rename_i hfull
      rw [hcap] at hfull
      cases htop : PQ.top p' with
      | none =>
        unfold PQ.top at htop
        rw [List.head?_eq_none_iff] at htop
        rw [htop] at hfull
        simp at hfull
        omega
      | some top =>
        exact ⟨_, rest', rfl, rfl, e2, hcap, k1, k2, k3, habove, Or.inr ⟨hfull, ⟨top, htop, rfl⟩, top_least e2 htop⟩⟩
    · rename_i hfull
      rw [hcap] at hfull
      have hlt : p'.heap.length < k := by rw [k3] at hfull ⊢; omega
      refine ⟨_, rest', rfl, rfl, e2, hcap, k1, k2, k3, habove, Or.inl ⟨hlt, ?_⟩⟩
      rcases h.min with ⟨-, e⟩ | ⟨hf, -⟩
      · exact e
      · rcases e4 with ⟨hr, -⟩ | ⟨-, d, -, -, hl, -⟩
        · rw [h.capa] at hr; omega
        · omega
  · rw [if_neg hadd]
    by_cases hacc : min0 < b ∧ t ≠ []
    · rw [List.filter_cons_of_pos (by simpa using hacc), List.filter_nil]
      rcases h.min with ⟨-, e⟩ | ⟨hf, ht, hle⟩
      · exact absurd ⟨by omega, hacc.2⟩ hadd
      · have hb : b ≤ q.minBoost := Int.not_lt.1 fun hlt => hadd ⟨hlt, hacc.2⟩
        refine ⟨q, (t, b) :: rest, rfl, rfl, h.inv, h.capa, ?_, ?_, ?_, ?_, Or.inr ⟨hf, ht, hle⟩⟩
        · exact (List.perm_middle).trans ((h.perm.cons (t, b)).trans (List.perm_append_comm (l₁ := [(t, b)])))
        · intro a ha c hc
          rcases List.mem_cons.1 hc with rfl | hc
          · have := hle a ha; dsimp only; omega
          · exact h.best a ha c hc
        · rw [List.length_append, List.length_singleton]; have := h.len; omega
        · intro a ha
          rcases List.mem_append.1 ha with ha | ha
          · exact h.above a ha
          · simp only [List.mem_singleton] at ha; subst ha; exact hacc.1
    · rw [List.filter_cons_of_neg (by simpa using hacc), List.filter_nil, List.append_nil]
      exact ⟨q, rest, rfl, rfl, h⟩

theorem addAll_kept {k : Nat} {min0 : Int} (hk : 0 < k) : ∀ (l : List (Term × Int)) {q : MTQ} {seen rest : List (Term × Int)}, Kept q k min0 seen rest →
    ∃ q' rest', addAll q l = .ok q' ∧ q'.boost = q.boost ∧ Kept q' k min0 (seen ++ l.filter fun x => decide (min0 < x.2 ∧ x.1 ≠ [])) rest' := by
  intro l
  induction l with
  | nil => intro q seen rest h; exact ⟨q, rest, rfl, rfl, by simpa using h⟩
  | cons x l ih =>
    intro q seen rest h
    obtain ⟨q1, rest1, e1, b1, h1⟩ := mtqAdd_kept hk h x.1 x.2
    obtain ⟨q2, rest2, e2, b2, h2⟩ := ih h1
    refine ⟨q2, rest2, ?_, b2.trans b1, ?_⟩
    · show (mtqAdd q x.1 x.2 >>= fun q => addAll q l) = _
      rw [e1, Res.ok_bind, e2]
    · rw [List.append_assoc, ← List.filter_append, List.singleton_append] at h2
      exact h2

theorem mtqNew_kept {k : Nat} (hk : 0 < k) (min0 boost : Int) : Kept ⟨PQ.new k, min0, boost⟩ k min0 [] [] :=
  ⟨PQ.inv_new _ _, rfl, by simp [PQ.new], fun a ha => by simp [PQ.new] at ha, by simp [PQ.new], fun a ha => (nomatch ha), Or.inl ⟨by simpa [PQ.new] using hk, rfl⟩⟩

/-! ### The loops add what they should -/

theorem prqLoop_eq (pre : Term) : ∀ (rest : List Term) (cur : Term) (q : MTQ),
    prqLoop pre q cur rest = addAll q (((cur :: rest).takeWhile fun t => strncmpEq t pre).map fun t => (t, one)) := by
  intro rest
  induction rest with
  | nil =>
    intro cur q
    rw [prqLoop]
    cases h : strncmpEq cur pre with
    | false => rw [if_pos rfl, List.takeWhile_cons_of_neg (by simp [h])]; rfl
    | true =>
      rw [if_neg (by simp), List.takeWhile_cons_of_pos (p := fun t => strncmpEq t pre) h]
      simp only [List.takeWhile_nil, List.map_cons, List.map_nil, addAll]
  | cons t ts ih =>
    intro cur q
    rw [prqLoop]
    cases h : strncmpEq cur pre with
    | false => rw [if_pos rfl, List.takeWhile_cons_of_neg (by simp [h])]; rfl
    | true =>
      rw [if_neg (by simp), List.takeWhile_cons_of_pos (p := fun t => strncmpEq t pre) h]
      simp only [List.map_cons, addAll, ih]

theorem wcqLoop_eq (pre pat : Term) : ∀ (rest : List Term) (cur : Term) (q : MTQ),
    wcqLoop pre pat q cur rest = addAll q ((((cur :: rest).takeWhile fun t => strncmpEq t pre).filter fun t => wcMatch pat (t.drop pre.length)).map fun t => (t, one)) := by
  have hnil : ∀ t, pre = [] → strncmpEq t pre = true := by rintro t rfl; cases t <;> rfl
  have hc : ∀ t, (pre ≠ [] ∧ strncmpEq t pre = false) ↔ strncmpEq t pre = false := fun t => ⟨fun h => h.2, fun h => ⟨(fun e => by rw [hnil t e] at h; cases h), h⟩⟩
  intro rest
  induction rest with
  | nil =>
    intro cur q
    rw [wcqLoop]
    simp only [hc]
    cases h : strncmpEq cur pre with
    | false => rw [if_pos rfl, List.takeWhile_cons_of_neg (by simp [h])]; rfl
    | true =>
      rw [if_neg (by simp), List.takeWhile_cons_of_pos (p := fun t => strncmpEq t pre) h]
      cases hm : wcMatch pat (cur.drop pre.length) with
      | true => rw [List.filter_cons_of_pos (p := fun t : Term => wcMatch pat (t.drop pre.length)) hm]; simp [addAll]
      | false => rw [List.filter_cons_of_neg (by simp [hm])]; simp [addAll]
  | cons t ts ih =>
    intro cur q
    rw [wcqLoop]
    simp only [hc]
    cases h : strncmpEq cur pre with
    | false => rw [if_pos rfl, List.takeWhile_cons_of_neg (by simp [h])]; rfl
    | true =>
      rw [if_neg (by simp), List.takeWhile_cons_of_pos (p := fun t => strncmpEq t pre) h]
      cases hm : wcMatch pat (cur.drop pre.length) with
      | true =>
        rw [List.filter_cons_of_pos (p := fun t : Term => wcMatch pat (t.drop pre.length)) hm]
        simp only [if_true, List.map_cons, addAll, ih]
      | false =>
        rw [List.filter_cons_of_neg (by simp [hm])]
        simp only [Bool.false_eq_true, if_false, Res.ok_bind, ih]

theorem fuzqLoop_eq (val : Score → Int) (maxd : Nat → Int) (pre text : Term) (sc : Term → Score)
    (hsc : ∀ t, fuzqScore maxd pre.length text (t.drop pre.length) = .ok (sc t)) : ∀ (rest : List Term) (cur : Term) (q : MTQ),
    fuzqLoop val maxd pre text q cur rest = addAll q (((cur :: rest).takeWhile fun t => strncmpEq t pre).map fun t => (t, val (sc t))) := by
  have hnil : ∀ t, pre = [] → strncmpEq t pre = true := by rintro t rfl; cases t <;> rfl
  have hc : ∀ t, (pre ≠ [] ∧ strncmpEq t pre = false) ↔ strncmpEq t pre = false := fun t => ⟨fun h => h.2, fun h => ⟨(fun e => by rw [hnil t e] at h; cases h), h⟩⟩
  intro rest
  induction rest with
  | nil =>
    intro cur q
    rw [fuzqLoop]
    simp only [hc]
    cases h : strncmpEq cur pre with
    | false => rw [if_pos rfl, List.takeWhile_cons_of_neg (by simp [h])]; rfl
    | true =>
      rw [if_neg (by simp), List.takeWhile_cons_of_pos (p := fun t => strncmpEq t pre) h]
      simp only [hsc, Res.ok_bind, List.takeWhile_nil, List.map_cons, List.map_nil, addAll]
  | cons t ts ih =>
    intro cur q
    rw [fuzqLoop]
    simp only [hc]
    cases h : strncmpEq cur pre with
    | false => rw [if_pos rfl, List.takeWhile_cons_of_neg (by simp [h])]; rfl
    | true =>
      rw [if_neg (by simp), List.takeWhile_cons_of_pos (p := fun t => strncmpEq t pre) h]
      simp only [hsc, Res.ok_bind, List.map_cons, addAll, ih]

/-! ### Bits -/

open BitVector in
theorem setDocs_spec : ∀ (docs : List Nat) (bv : BV), WF bv → ∃ bv', setDocs bv docs = .ok bv' ∧ WF bv' ∧
    ∀ j, bitAt bv'.bits bv'.ext j = (bitAt bv.bits bv.ext j || docs.contains j) := by
  intro docs
  induction docs with
  | nil => intro bv h; exact ⟨bv, rfl, h, fun j => by simp⟩
  | cons d ds ih =>
    intro bv h
    obtain ⟨b1, e1, w1, -, -, -, -, g1, -⟩ := setValue_ok bv d true h
    obtain ⟨b2, e2, w2, g2⟩ := ih b1 w1
    refine ⟨b2, ?_, w2, fun j => ?_⟩
    · show (BitVector.set bv (d : Int) >>= _) = _
      unfold BitVector.set
      rw [e1, Res.ok_bind, e2]
    · rw [g2, g1, List.contains_cons]
      by_cases hj : j = d
      · simp [hj]
      · rw [if_neg hj, show (j == d) = false by simpa using hj]; simp

end Ferret.Expand
