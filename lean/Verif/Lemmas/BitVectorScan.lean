import Verif.Lemmas.BitVectorOps

namespace Ferret.BitVector

theorem ctz_spec (w : Word) (h : w ≠ 0#32) :
    ctz w < 32 ∧ w.getLsbD (ctz w) = true ∧ ∀ j, j < ctz w → w.getLsbD j = false := by
  unfold ctz
  cases hf : (List.range 32).find? (fun i => w.getLsbD i) with
  | none =>
    exfalso; apply h
    rw [List.find?_eq_none] at hf
    apply BitVec.eq_of_getLsbD_eq
    intro i hi
    have := hf i (by simp; exact hi)
    simpa using this
  | some i =>
    simp only []
    rw [List.find?_range_eq_some] at hf
    obtain ⟨h1, h2, h3⟩ := hf
    refine ⟨by simpa using h2, h1, ?_⟩
    intro j hj; simpa using h3 j hj

theorem word_zero_iff (w : Word) : w = 0#32 ↔ ∀ j, j < 32 → w.getLsbD j = false := by
  constructor
  · intro h j _; simp [h]
  · intro h; apply BitVec.eq_of_getLsbD_eq; intro i hi; simpa using h i hi

theorem scanWords_spec (bits : List Word) (n pos : Nat) (h : pos + n ≤ bits.length) :
    (∃ p w, scanWords bits n pos = .ok (some (p, w)) ∧ pos ≤ p ∧ p < pos + n ∧ bits[p]? = some w ∧ w ≠ 0#32 ∧
        ∀ k, pos ≤ k → k < p → bits[k]? = some 0#32) ∨
    (scanWords bits n pos = .ok none ∧ ∀ k, pos ≤ k → k < pos + n → bits[k]? = some 0#32) := by
  induction n generalizing pos with
  | zero => right; exact ⟨rfl, fun k h1 h2 => by omega⟩
  | succ n ih =>
    unfold scanWords
    rw [List.getElem?_eq_getElem (by omega : pos < bits.length)]
    simp only []
    by_cases hw : bits[pos] = 0#32
    · rw [if_neg (by simp [hw])]
      rcases ih (pos + 1) (by omega) with ⟨p, w, h1, h2, h3, h4, h5, h6⟩ | ⟨h1, h2⟩
      · left
        refine ⟨p, w, h1, by omega, by omega, h4, h5, ?_⟩
        intro k hk1 hk2
        by_cases hk : k = pos
        · subst hk; rw [List.getElem?_eq_getElem (by omega), hw]
        · exact h6 k (by omega) hk2
      · right
        refine ⟨h1, ?_⟩
        intro k hk1 hk2
        by_cases hk : k = pos
        · subst hk; rw [List.getElem?_eq_getElem (by omega), hw]
        · exact h2 k (by omega) (by omega)
    · left
      rw [if_pos (by simpa using hw)]
      exact ⟨pos, _, rfl, by omega, by omega, by rw [List.getElem?_eq_getElem (by omega)], hw, fun k h1 h2 => by omega⟩

theorem getLsbD_shl_allOnes (k j : Nat) (hj : j < 32) :
    (BitVec.allOnes 32 <<< k).getLsbD j = decide (k ≤ j) := by
  rw [BitVec.getLsbD_shiftLeft, BitVec.getLsbD_allOnes]
  by_cases h : k ≤ j
  · simp [hj, h]; omega
  · simp [hj, h]

/-- What scanning from `i` returns, in terms of the logical bits. -/
theorem scanNextFrom_spec (bv : BV) (i : Nat) (hwf : WFw bv) (hi : i < 32 * bv.bits.length) (he : bv.ext = false) :
    (∃ j : Nat, scanNextFrom bv (i : Int) = .ok ((j : Int), { bv with currBit := (j : Int) }) ∧
        i ≤ j ∧ j < bv.size ∧ lg bv j = true ∧ ∀ k, i ≤ k → k < j → lg bv k = false) ∨
    (scanNextFrom bv (i : Int) = .ok (-1, bv) ∧ ∀ k, i ≤ k → lg bv k = false) := by
  have hsz := hwf.size_le
  have hdef : scanNextFrom bv (i : Int) = (match bv.bits[i / 32]? with
    | none => .ub
    | some w =>
      if i ≥ bv.size then .ok (-1, bv)
      else
        let w' := w &&& (BitVec.allOnes 32 <<< (i % 32))
        if w' ≠ 0#32 then
          let r : Int := ((i / 32) * 32 + ctz w' : Nat)
          .ok (r, { bv with currBit := r })
        else
          match scanWords bv.bits (toWord bv.size - (i / 32 + 1)) (i / 32 + 1) with
          | .ok (some (pos, w'')) =>
            let r : Int := (pos * 32 + ctz w'' : Nat)
            .ok (r, { bv with currBit := r })
          | .ok none => .ok (-1, bv)
          | .raise e => .raise e
          | .ub => .ub) := rfl
  have hlgw : ∀ j, j / 32 < toWord bv.size → ∀ w, bv.bits[j / 32]? = some w → lg bv j = w.getLsbD (j % 32) := by
    intro j hj w hw
    unfold lg lw
    rw [bitAt_take, if_pos hj]
    unfold bitAt; rw [hw]
  have hlt : ∀ j, lg bv j = true → j < bv.size := by
    intro j hj
    by_cases h : bv.size ≤ j
    · rw [hwf.tail j h, he] at hj; simp at hj
    · omega
  rw [hdef, List.getElem?_eq_getElem (by omega : i / 32 < bv.bits.length)]
  simp only []
  by_cases h1 : i ≥ bv.size
  · right
    rw [if_pos h1]
    refine ⟨rfl, fun k hk => ?_⟩
    rw [hwf.tail k (by omega), he]
  · rw [if_neg h1]
    have hiw : i / 32 < toWord bv.size := by unfold toWord; omega
    have hgw : bv.bits[i / 32]? = some bv.bits[i / 32] := List.getElem?_eq_getElem (by omega)
    by_cases h2 : bv.bits[i / 32] &&& (BitVec.allOnes 32 <<< (i % 32)) = 0#32
    · rw [if_neg (by simpa using h2)]
      have hz : ∀ k, i ≤ k → k / 32 = i / 32 → lg bv k = false := by
        intro k hk1 hk2
        rw [hlgw k (by omega) _ (by rw [hk2]; exact hgw)]
        have := (word_zero_iff _).mp h2 (k % 32) (Nat.mod_lt _ (by decide))
        rw [BitVec.getLsbD_and, getLsbD_shl_allOnes _ _ (Nat.mod_lt _ (by decide))] at this
        simpa [show i % 32 ≤ k % 32 by omega] using this
      rcases scanWords_spec bv.bits (toWord bv.size - (i / 32 + 1)) (i / 32 + 1) (by omega) with
        ⟨p, w, e1, e2, e3, e4, e5, e6⟩ | ⟨e1, e2⟩
      · rw [e1]
        simp only []
        left
        have hc := ctz_spec w e5
        refine ⟨p * 32 + ctz w, rfl, by omega, ?_, ?_, ?_⟩
        · apply hlt; rw [hlgw _ (by omega) w (by rw [show (p * 32 + ctz w) / 32 = p by omega]; exact e4)]
          rw [show (p * 32 + ctz w) % 32 = ctz w by omega]; exact hc.2.1
        · rw [hlgw _ (by omega) w (by rw [show (p * 32 + ctz w) / 32 = p by omega]; exact e4)]
          rw [show (p * 32 + ctz w) % 32 = ctz w by omega]; exact hc.2.1
        · intro k hk1 hk2
          by_cases hkw : k / 32 = i / 32
          · exact hz k hk1 hkw
          · by_cases hkp : k / 32 = p
            · rw [hlgw k (by omega) w (by rw [hkp]; exact e4)]
              exact hc.2.2 _ (by omega)
            · rw [hlgw k (by omega) _ (e6 (k / 32) (by omega) (by omega))]; simp
      · rw [e1]
        simp only []
        right
        refine ⟨trivial, ?_⟩
        intro k hk
        by_cases hks : bv.size ≤ k
        · rw [hwf.tail k hks, he]
        · by_cases hkw : k / 32 = i / 32
          · exact hz k hk hkw
          · have hkt : k / 32 < toWord bv.size := by unfold toWord; omega
            rw [hlgw k hkt _ (e2 (k / 32) (by omega) (by omega))]; simp
    · rw [if_pos (by simpa using h2)]
      left
      have hc := ctz_spec _ h2
      generalize hcz : ctz (bv.bits[i / 32] &&& (BitVec.allOnes 32 <<< (i % 32))) = c at hc ⊢
      have h3 := hc.2.1
      rw [BitVec.getLsbD_and, getLsbD_shl_allOnes _ _ hc.1] at h3
      simp only [Bool.and_eq_true, decide_eq_true_eq] at h3
      have hd : (i / 32 * 32 + c) / 32 = i / 32 := by omega
      have hm : (i / 32 * 32 + c) % 32 = c := by omega
      have hbit : lg bv (i / 32 * 32 + c) = true := by
        rw [hlgw _ (by omega) _ (by rw [hd]; exact hgw), hm]; exact h3.1
      refine ⟨i / 32 * 32 + c, rfl, by omega, hlt _ hbit, hbit, ?_⟩
      intro k hk1 hk2
      have hkd : k / 32 = i / 32 := by omega
      rw [hlgw k (by omega) _ (by rw [hkd]; exact hgw)]
      have h4 := hc.2.2 (k % 32) (by omega)
      rw [BitVec.getLsbD_and, getLsbD_shl_allOnes _ _ (by omega)] at h4
      simpa [show i % 32 ≤ k % 32 by omega] using h4

end Ferret.BitVector
