import Verif.Lemmas.BitVectorOps

namespace Ferret.BitVector

/-- Word `k` of a list padded with the tail word. -/
def padWord (A : List Word) (e : Bool) (k : Nat) : Word := (A[k]?).getD (fillWord e)

theorem bitAt_pad (A : List Word) (e : Bool) (i : Nat) :
    bitAt A e i = (padWord A e (i / 32)).getLsbD (i % 32) := by
  unfold bitAt padWord
  cases A[i / 32]? with
  | some w => rfl
  | none => exact (getLsbD_fillWord e _ (Nat.mod_lt _ (by decide))).symm

theorem pad_ext (A B : List Word) (ea eb : Bool) :
    (∀ i, bitAt A ea i = bitAt B eb i) ↔ ∀ k, padWord A ea k = padWord B eb k := by
  constructor
  · intro h k
    apply BitVec.eq_of_getLsbD_eq
    intro j hj
    have := h (32 * k + j)
    rw [bitAt_pad, bitAt_pad, show (32 * k + j) / 32 = k by omega, show (32 * k + j) % 32 = j by omega] at this
    exact this
  · intro h i; rw [bitAt_pad, bitAt_pad, h]

theorem fillWord_inj {a b : Bool} (h : fillWord a = fillWord b) : a = b := by
  cases a <;> cases b <;> first | rfl | (exfalso; revert h; decide)

theorem pad_tail_ext {A B : List Word} {ea eb : Bool} (h : ∀ k, padWord A ea k = padWord B eb k) : ea = eb := by
  have := h (max A.length B.length)
  unfold padWord at this
  rw [List.getElem?_eq_none (by omega), List.getElem?_eq_none (by omega)] at this
  exact fillWord_inj this

theorem take_eq_iff (A B : List Word) (n : Nat) :
    A.take n = B.take n ↔ ∀ k, k < n → A[k]? = B[k]? := by
  constructor
  · intro h k hk
    have : (A.take n)[k]? = (B.take n)[k]? := by rw [h]
    rwa [List.getElem?_take, List.getElem?_take, if_pos hk, if_pos hk] at this
  · intro h
    apply List.ext_getElem?
    intro k
    rw [List.getElem?_take, List.getElem?_take]
    split
    · exact h k ‹_›
    · rfl

theorem drop_all_iff (A : List Word) (n : Nat) (w : Word) :
    (A.drop n).all (fun x => x == w) = true ↔ ∀ k, n ≤ k → k < A.length → A[k]? = some w := by
  rw [List.all_eq_true]
  constructor
  · intro h k hk hl
    have hm : A[k] ∈ A.drop n := by
      rw [List.mem_drop_iff_getElem]
      refine ⟨k - n, by omega, ?_⟩
      congr 1; omega
    have := h _ hm
    rw [List.getElem?_eq_getElem hl]
    simp at this; rw [this]
  · intro h x hx
    rw [List.mem_drop_iff_getElem] at hx
    obtain ⟨j, hj, rfl⟩ := hx
    have hj' : n + j < A.length := by omega
    have := h (n + j) (by omega) hj'
    rw [List.getElem?_eq_getElem hj'] at this
    simpa using this

theorem eq_iff (a b : BV) (ha : WFw a) (hb : WFw b) :
    ∃ r, eq a b = .ok r ∧ (r = true ↔ ∀ i, lg a i = lg b i) := by
  have hA := ha.size_le
  have hB := hb.size_le
  have hla := lw_length hA
  have hlb := lw_length hB
  unfold eq
  rw [if_neg (by omega)]
  unfold lg
  rw [pad_ext]
  by_cases he : a.ext = b.ext
  · rw [if_neg (by simp [he])]
    simp only []
    have htk : (a.bits.take (toWord (min a.size b.size)) = b.bits.take (toWord (min a.size b.size))) ↔
        ∀ k, k < min (toWord a.size) (toWord b.size) → (lw a)[k]? = (lw b)[k]? := by
      rw [toWord_min, take_eq_iff]
      unfold lw
      constructor
      · intro h k hk; rw [List.getElem?_take, List.getElem?_take, if_pos (by omega), if_pos (by omega)]; exact h k hk
      · intro h k hk; have := h k hk; rwa [List.getElem?_take, List.getElem?_take, if_pos (by omega), if_pos (by omega)] at this
    by_cases ht : a.bits.take (toWord (min a.size b.size)) = b.bits.take (toWord (min a.size b.size))
    · rw [if_neg (by simpa using ht)]
      have hpre := htk.mp ht
      have hmin : toWord (min a.size b.size) = min (toWord a.size) (toWord b.size) := toWord_min _ _
      split
      · rename_i hgt
        refine ⟨_, rfl, ?_⟩
        have hle : toWord b.size ≤ toWord a.size := toWord_mono (by omega)
        show (((lw a).drop _).all _) = true ↔ _
        rw [drop_all_iff, hmin, hla]
        constructor
        · intro h k
          unfold padWord
          by_cases hk : k < toWord b.size
          · rw [hpre k (by omega), he]
          · rw [List.getElem?_eq_none (l := lw b) (by omega)]
            by_cases hk2 : k < toWord a.size
            · rw [h k (by omega) hk2, he]; rfl
            · rw [List.getElem?_eq_none (by omega), he]
        · intro h k hk1 hk2
          have := h k
          unfold padWord at this
          rw [List.getElem?_eq_none (l := lw b) (by omega), List.getElem?_eq_getElem (by omega)] at this
          rw [List.getElem?_eq_getElem (by omega), he]
          simpa using this
      · split
        · rename_i hgt
          refine ⟨_, rfl, ?_⟩
          have hle : toWord a.size ≤ toWord b.size := toWord_mono (by omega)
          show (((lw b).drop _).all _) = true ↔ _
          rw [drop_all_iff, hmin, hlb]
          constructor
          · intro h k
            unfold padWord
            by_cases hk : k < toWord a.size
            · rw [hpre k (by omega), he]
            · rw [List.getElem?_eq_none (l := lw a) (by omega)]
              by_cases hk2 : k < toWord b.size
              · rw [h k (by omega) hk2]; rfl
              · rw [List.getElem?_eq_none (by omega), he]
          · intro h k hk1 hk2
            have := h k
            unfold padWord at this
            rw [List.getElem?_eq_none (l := lw a) (by omega), List.getElem?_eq_getElem (by omega)] at this
            rw [List.getElem?_eq_getElem (by omega)]
            simpa using this.symm
        · refine ⟨true, rfl, ?_⟩
          have hsz : a.size = b.size := by omega
          simp only [true_iff]
          intro k
          unfold padWord
          rw [he]
          by_cases hk : k < toWord a.size
          · rw [hpre k (by rw [← hsz]; omega)]
          · rw [List.getElem?_eq_none (by omega), List.getElem?_eq_none (by rw [hlb, ← hsz]; omega)]
    · rw [if_pos (by simpa using ht)]
      refine ⟨false, rfl, ?_⟩
      simp only [Bool.false_eq_true, false_iff]
      intro h
      apply ht
      rw [htk]
      intro k hk
      have := h k
      unfold padWord at this
      rw [List.getElem?_eq_getElem (by omega), List.getElem?_eq_getElem (by omega)] at this
      rw [List.getElem?_eq_getElem (by omega), List.getElem?_eq_getElem (by omega)]
      simpa using this
  · rw [if_pos (by simpa using he)]
    refine ⟨false, rfl, ?_⟩
    simp only [Bool.false_eq_true, false_iff]
    intro h
    exact he (pad_tail_ext h)

/-- The word fold of `bv_hash`. -/
def hashFold (e : Bool) (A : List Word) : BitVec 64 :=
  A.foldr (fun w (h : BitVec 64) => if w ≠ fillWord e then (h <<< (1:Nat)) ^^^ (w.setWidth 64) else h) 0#64

theorem hashFold_fill (e : Bool) (A : List Word) (h : ∀ k, padWord A e k = fillWord e) : hashFold e A = 0#64 := by
  induction A with
  | nil => rfl
  | cons x A ih =>
    have h0 : x = fillWord e := by simpa [padWord] using h 0
    have := ih (fun k => by simpa [padWord] using h (k + 1))
    unfold hashFold at this ⊢
    rw [List.foldr_cons, this]; simp [h0]

theorem hashFold_congr (e : Bool) (A B : List Word) (h : ∀ k, padWord A e k = padWord B e k) :
    hashFold e A = hashFold e B := by
  induction A generalizing B with
  | nil => rw [hashFold_fill e B (fun k => by rw [← h k]; simp [padWord])]; rfl
  | cons x A ih =>
    cases B with
    | nil => rw [hashFold_fill e (x :: A) (fun k => by rw [h k]; simp [padWord])]; rfl
    | cons y B =>
      have h0 : x = y := by simpa [padWord] using h 0
      have := ih B (fun k => by simpa [padWord] using h (k + 1))
      unfold hashFold at this ⊢
      rw [List.foldr_cons, List.foldr_cons, this, h0]

theorem hash_congr (a b : BV) (h : ∀ i, lg a i = lg b i) : hash a = hash b := by
  have h2 := (pad_ext _ _ _ _).mp h
  have he := pad_tail_ext h2
  have := hashFold_congr a.ext (lw a) (lw b) (by rw [he] at h2 ⊢; exact h2)
  unfold hash
  simp only []
  rw [show (List.foldr (fun w (h : BitVec 64) => if w ≠ fillWord a.ext then (h <<< (1:Nat)) ^^^ (w.setWidth 64) else h) 0#64 (a.bits.take (toWord a.size))) = hashFold a.ext (lw a) from rfl,
    this, he]
  rfl

end Ferret.BitVector
