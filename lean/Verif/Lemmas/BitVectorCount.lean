import Verif.Lemmas.BitVectorOps

namespace Ferret.BitVector

theorem cnt_add (f : Nat → Bool) (n m : Nat) : cnt f (n + m) = cnt f n + cnt (fun i => f (n + i)) m := by
  induction m with
  | zero => rfl
  | succ m ih => rw [← Nat.add_assoc, cnt_succ, cnt_succ, ih]; omega

theorem cnt_false (n : Nat) : cnt (fun _ => false) n = 0 := by
  induction n with
  | zero => rfl
  | succ n ih => rw [cnt_succ, ih]; rfl

theorem countOnes_eq (w : Word) : countOnes w = cnt (fun i => w.getLsbD i) 32 := rfl

/-- Popcount of a word masked to bits `[lo, lo+8)`. -/
theorem countOnes_mask (w m : Word) (lo : Nat) (hlo : lo + 8 ≤ 32)
    (hm : ∀ i, i < 32 → m.getLsbD i = (decide (lo ≤ i) && decide (i < lo + 8))) :
    countOnes (w &&& m) = cnt (fun i => w.getLsbD (lo + i)) 8 := by
  rw [countOnes_eq]
  have h0 : cnt (fun i => (w &&& m).getLsbD i) 32 =
      cnt (fun i => w.getLsbD i && (decide (lo ≤ i) && decide (i < lo + 8))) 32 := by
    apply cnt_congr; intro i hi; rw [BitVec.getLsbD_and, hm i hi]
  have hs : ∀ F : Nat → Bool, cnt F 32 = cnt F lo + (cnt (fun i => F (lo + i)) 8 + cnt (fun i => F (lo + (8 + i))) (24 - lo)) := by
    intro F
    have : 32 = lo + (8 + (24 - lo)) := by omega
    rw [this, cnt_add, cnt_add, show 24 - lo = lo + (8 + (24 - lo)) - lo - 8 by omega]
  rw [h0, hs]
  have h1 : cnt (fun i => w.getLsbD i && (decide (lo ≤ i) && decide (i < lo + 8))) lo = 0 := by
    rw [← cnt_false lo]; apply cnt_congr; intro i hi; simp; omega
  have h2 : cnt (fun i => w.getLsbD (lo + i) && (decide (lo ≤ lo + i) && decide (lo + i < lo + 8))) 8
      = cnt (fun i => w.getLsbD (lo + i)) 8 := by
    apply cnt_congr; intro i hi; simp; omega
  have h3 : cnt (fun i => w.getLsbD (lo + (8 + i)) && (decide (lo ≤ lo + (8 + i)) && decide (lo + (8 + i) < lo + 8))) (24 - lo) = 0 := by
    rw [← cnt_false (24 - lo)]; apply cnt_congr; intro i hi; simp
  omega

/-- The partial-word contribution of `recount` counts the low `8 * extra` bits. -/
theorem part_ones (w : Word) (extra : Nat) (h1 : 1 ≤ extra) (h4 : extra ≤ 4) :
    (if extra ≥ 4 then countOnes (w &&& 0xff000000#32) else 0) +
    (if extra ≥ 3 then countOnes (w &&& 0x00ff0000#32) else 0) +
    (if extra ≥ 2 then countOnes (w &&& 0x0000ff00#32) else 0) +
    countOnes (w &&& 0x000000ff#32) = cnt (fun i => w.getLsbD i) (8 * extra) := by
  rw [countOnes_mask w 0xff000000#32 24 (by omega) (by decide),
    countOnes_mask w 0x00ff0000#32 16 (by omega) (by decide),
    countOnes_mask w 0x0000ff00#32 8 (by omega) (by decide),
    countOnes_mask w 0x000000ff#32 0 (by omega) (by decide)]
  have e2 : cnt (fun i => w.getLsbD i) 16 = _ := cnt_add (fun i => w.getLsbD i) 8 8
  have e3 : cnt (fun i => w.getLsbD i) 24 = _ := cnt_add (fun i => w.getLsbD i) 16 8
  have e4 : cnt (fun i => w.getLsbD i) 32 = _ := cnt_add (fun i => w.getLsbD i) 24 8
  have hz : cnt (fun i => w.getLsbD (0 + i)) 8 = cnt (fun i => w.getLsbD i) 8 := by
    apply cnt_congr; intro i _; rw [Nat.zero_add]
  have : extra = 1 ∨ extra = 2 ∨ extra = 3 ∨ extra = 4 := by omega
  rcases this with h | h | h | h <;> subst h <;> simp only [Nat.reduceLeDiff, ge_iff_le, if_true, if_false, Nat.reduceMul] <;> omega

theorem part_zeros (w : Word) (extra : Nat) (h1 : 1 ≤ extra) (h4 : extra ≤ 4) :
    (if extra ≥ 4 then countZeros (w ||| 0x00ffffff#32) else 0) +
    (if extra ≥ 3 then countZeros (w ||| 0xff00ffff#32) else 0) +
    (if extra ≥ 2 then countZeros (w ||| 0xffff00ff#32) else 0) +
    countZeros (w ||| 0xffffff00#32) = cnt (fun i => (~~~w).getLsbD i) (8 * extra) := by
  rw [← part_ones (~~~w) extra h1 h4]
  unfold countZeros
  simp only [BitVec.not_or]
  rfl

theorem cnt_words (f : Word → Nat) (g : Word → Nat → Bool) (hf : ∀ w, f w = cnt (g w) 32)
    (bits : List Word) (len : Nat) (hlen : len ≤ bits.length) (b : Nat → Bool)
    (hb : ∀ i (h : i / 32 < bits.length), b i = g bits[i / 32] (i % 32)) :
    sumWords f bits len = cnt b (32 * len) := by
  induction len with
  | zero => rfl
  | succ n ih =>
    have hn : n < bits.length := by omega
    have e1 : sumWords f bits (n + 1) = sumWords f bits n + f bits[n] := by
      unfold sumWords
      rw [List.take_add_one, List.getElem?_eq_getElem hn, List.map_append, List.sum_append]; simp
    rw [e1, ih (by omega), show 32 * (n + 1) = 32 * n + 32 by omega, cnt_add, hf]
    congr 1
    apply cnt_congr
    intro i hi
    have hd : (32 * n + i) / 32 = n := by omega
    have hmd : (32 * n + i) % 32 = i := by omega
    rw [hb (32 * n + i) (by omega)]
    simp only [hd, hmd]

/-- `recount` stores the number of bits below `32*(size/32) + 8*extra` that differ from the tail. -/
theorem recount_count (bv : BV) (h : bv.size / 32 < bv.bits.length) :
    recount bv = .ok { bv with count :=
      (cnt (fun i => bitAt bv.bits bv.ext i ^^ bv.ext) (32 * (bv.size / 32) + 8 * (bv.size % 32 / 8 + 1)) : Nat) } := by
  unfold recount
  simp only []
  rw [if_neg (by omega), List.getElem?_eq_getElem h]
  simp only []
  congr 2
  have hd : ∀ i, i < 32 → (32 * (bv.size / 32) + i) / 32 = bv.size / 32 ∧ (32 * (bv.size / 32) + i) % 32 = i := by
    intro i hi; omega
  cases he : bv.ext
  · simp only [Bool.false_eq_true, if_false, Bool.xor_false]
    rw [part_ones _ _ (by omega) (by omega), cnt_add,
      cnt_words countOnes (fun w i => w.getLsbD i) countOnes_eq bv.bits (bv.size / 32) (by omega) (fun i => bitAt bv.bits false i)]
    · congr 2
      apply cnt_congr
      intro i hi
      have := hd i (by omega)
      unfold bitAt
      rw [this.1, this.2, List.getElem?_eq_getElem h]
    · intro i hi; unfold bitAt; rw [List.getElem?_eq_getElem hi]
  · simp only [if_true, Bool.xor_true]
    rw [part_zeros _ _ (by omega) (by omega), cnt_add,
      cnt_words countZeros (fun w i => (~~~w).getLsbD i) (fun w => countOnes_eq _) bv.bits (bv.size / 32) (by omega) (fun i => !bitAt bv.bits true i)]
    · congr 2
      apply cnt_congr
      intro i hi
      have := hd i (by omega)
      unfold bitAt
      rw [this.1, this.2, List.getElem?_eq_getElem h, getLsbD_not' _ _ (by omega)]
    · intro i hi; unfold bitAt; rw [List.getElem?_eq_getElem hi, getLsbD_not' _ _ (Nat.mod_lt _ (by decide))]

/-- For a vector satisfying the strong invariant the recounted value is the number of bits
that differ from the tail bit. -/
theorem recount_exact (bv r : BV) (hwf : WF bv) (hr : recount bv = .ok r) (n : Nat)
    (hn : ∀ j, (bitAt bv.bits bv.ext j ^^ bv.ext) = true → j < n) :
    r.count = (cnt (fun i => bitAt bv.bits bv.ext i ^^ bv.ext) n : Nat) := by
  have hlt : bv.size / 32 < bv.bits.length := by
    by_cases h : bv.size / 32 < bv.bits.length
    · exact h
    · exfalso
      unfold recount at hr
      simp only [] at hr
      split at hr
      · simp at hr
      · rw [List.getElem?_eq_none (by omega)] at hr; simp at hr
  rw [recount_count bv hlt] at hr
  injection hr with hr
  rw [← hr]
  simp only []
  congr 1
  have hsup : ∀ j, (bitAt bv.bits bv.ext j ^^ bv.ext) = true → j < bv.size := by
    intro j hj
    by_cases hjs : bv.size ≤ j
    · rw [hwf.tail j hjs] at hj; simp at hj
    · omega
  rw [cnt_mono_bound (n := bv.size) hsup (by omega)]
  by_cases hle : n ≤ bv.size
  · exact cnt_mono_bound hn hle
  · exact (cnt_mono_bound hsup (by omega)).symm

end Ferret.BitVector
