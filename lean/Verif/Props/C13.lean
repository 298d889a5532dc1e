import Verif.Model.Norm
import Verif.Spec.Float

/-!
C13: the byte of a norm. All bytes and all floats.
-/

namespace Ferret.Props
open Ferret Ferret.Spec Ferret.Norm

/-! ### Arithmetic -/

theorem and_mask (i : Nat) : (i &&& 0xEf0000) >>> 21 = i / 2 ^ 21 % 8 := by
  rw [Nat.shiftRight_and_distrib, show 0xEf0000 >>> 21 = 2 ^ 3 - 1 from rfl, Nat.and_two_pow_sub_one_eq_mod, Nat.shiftRight_eq_div_pow]

theorem byte2float_eq (b : Nat) (h : 0 < b) (hb : b < 256) : byte2float b = (b + 384) * 2 ^ 21 := by
  unfold byte2float
  rw [if_neg (by omega)]
  dsimp only
  rw [show (0x07 : Nat) = 2 ^ 3 - 1 from rfl, show (0x1f : Nat) = 2 ^ 5 - 1 from rfl, Nat.and_two_pow_sub_one_eq_mod, Nat.and_two_pow_sub_one_eq_mod,
    Nat.shiftRight_eq_div_pow, Nat.or_comm, Nat.shiftLeft_eq (b % 2 ^ 3), ← Nat.shiftLeft_add_eq_or_of_lt (by omega), Nat.shiftLeft_eq]
  omega

theorem float2byte_eq (i : Nat) (h : 0 < i) (hi : i < 2 ^ 31) : float2byte i =
    if i < 384 * 2 ^ 21 then 1 else if i < 640 * 2 ^ 21 then i / 2 ^ 21 - 384 else 255 := by
  have hz : leZero i = false := by
    unfold leZero
    simp only [Bool.or_eq_false_iff, beq_eq_false_iff_ne, Bool.and_eq_false_iff, decide_eq_false_iff_not]
    exact ⟨by omega, .inl (by omega)⟩
  unfold float2byte
  rw [hz]
  simp only [Bool.false_eq_true, if_false, and_mask]
  simp only [Nat.shiftRight_eq_div_pow]
  by_cases h1 : i < 384 * 2 ^ 21
  · have c1 : ¬ (((i / 2 ^ 24 : Nat) : Int) - 48 > 31) := by omega
    have c2 : ((i / 2 ^ 24 : Nat) : Int) - 48 < 0 := by omega
    rw [if_pos h1]
    simp only [if_neg c1, if_pos c2]
    rfl
  · rw [if_neg h1]
    have c2 : ¬ (((i / 2 ^ 24 : Nat) : Int) - 48 < 0) := by omega
    by_cases h2 : i < 640 * 2 ^ 21
    · have c1 : ¬ (((i / 2 ^ 24 : Nat) : Int) - 48 > 31) := by omega
      rw [if_pos h2]
      simp only [if_neg c1, if_neg c2]
      rw [← Nat.shiftLeft_add_eq_or_of_lt (by omega), Nat.shiftLeft_eq]
      omega
    · have c1 : ((i / 2 ^ 24 : Nat) : Int) - 48 > 31 := by omega
      rw [if_neg h2]
      simp only [if_pos c1]
      rfl

/-! ### Values -/

theorem floatValue_step (i : Nat) : floatValue i < floatValue (i + 1) := by
  unfold floatValue
  dsimp only
  have aux : ∀ e m : Nat, m < 8388608 → (if e = 0 then m else (8388608 + m) * 2 ^ (e - 1)) <
      (if (e * 8388608 + m + 1) / 8388608 = 0 then (e * 8388608 + m + 1) % 8388608
       else (8388608 + (e * 8388608 + m + 1) % 8388608) * 2 ^ ((e * 8388608 + m + 1) / 8388608 - 1)) := by
    intro e m hm
    by_cases h : m + 1 < 8388608
    · have e1 : (e * 8388608 + m + 1) / 8388608 = e := by omega
      have e2 : (e * 8388608 + m + 1) % 8388608 = m + 1 := by omega
      rw [e1, e2]
      split
      · omega
      · exact Nat.mul_lt_mul_of_pos_right (by omega) (Nat.pow_pos (by decide))
    · have e1 : (e * 8388608 + m + 1) / 8388608 = e + 1 := by omega
      have e2 : (e * 8388608 + m + 1) % 8388608 = 0 := by omega
      rw [e1, e2, if_neg (show ¬ e + 1 = 0 by omega)]
      split
      · rename_i h0; subst h0; simp; omega
      · rename_i h0
        obtain ⟨k, rfl⟩ : ∃ k, e = k + 1 := ⟨e - 1, by omega⟩
        simp only [Nat.add_sub_cancel]
        have hp : 0 < 2 ^ k := Nat.pow_pos (by decide)
        generalize hP : 2 ^ k = P at hp ⊢
        rw [Nat.pow_succ, hP]
        have : (8388608 + m) * P ≤ 16777215 * P := Nat.mul_le_mul_right _ (by omega)
        omega
  have h := aux (i / 8388608) (i % 8388608) (by omega)
  rw [show i / 8388608 * 8388608 + i % 8388608 + 1 = i + 1 by omega] at h
  exact h

theorem floatValue_lt (i j : Nat) (h : i < j) : floatValue i < floatValue j := by
  induction j with
  | zero => omega
  | succ j ih =>
    by_cases hij : i = j
    · subst hij; exact floatValue_step i
    · exact Nat.lt_trans (ih (by omega)) (floatValue_step j)

theorem floatValue_le (i j : Nat) (h : i ≤ j) : floatValue i ≤ floatValue j := by
  rcases Nat.lt_or_eq_of_le h with h | rfl
  · exact Nat.le_of_lt (floatValue_lt i j h)
  · exact Nat.le_refl _

/-- **C13, decoding.** Every byte has a value; the values increase; encoding the value of a byte gives
the byte. -/
theorem c13_decode (b : Nat) (hb : b < 256) :
    ∃ f, decodeNorm b = .ok f ∧ f < 0x7F800000 ∧ encodeNorm f = b ∧
      ∀ c, b < c → c < 256 → ∃ g, decodeNorm c = .ok g ∧ floatValue f < floatValue g := by
  have hdec : ∀ c, c < 256 → decodeNorm c = .ok (byte2float c) := by
    intro c hc
    unfold decodeNorm normTable
    rw [List.getElem?_map, List.getElem?_range hc]
    rfl
  refine ⟨byte2float b, hdec b hb, ?_, ?_, ?_⟩
  · by_cases h0 : b = 0
    · subst h0; decide
    · rw [byte2float_eq b (by omega) hb]; omega
  · unfold encodeNorm
    by_cases h0 : b = 0
    · subst h0; decide
    · rw [byte2float_eq b (by omega) hb, float2byte_eq _ (by omega) (by omega), if_neg (by omega), if_pos (by omega)]
      omega
  · intro c hbc hc
    refine ⟨byte2float c, hdec c hc, floatValue_lt _ _ ?_⟩
    rw [byte2float_eq c (by omega) hc]
    by_cases h0 : b = 0
    · subst h0
      have : byte2float 0 = 0 := rfl
      omega
    · rw [byte2float_eq b (by omega) hb]; omega

/-- **C13, encoding.** Zero and negative numbers give byte 0. A positive number gives a byte next to
it: its value and that of a neighbouring byte enclose the number; above the largest value it is 255.
From the value of byte 1 on it is the largest byte that does not exceed the number. -/
theorem c13_encode (i : Nat) :
    (leZero i = true → encodeNorm i = 0) ∧
    (Positive i →
      (floatValue i < floatValue (byte2float 1) → encodeNorm i ≤ 1) ∧
      (floatValue (byte2float 1) ≤ floatValue i → ∃ b, encodeNorm i = b ∧ 1 ≤ b ∧ b < 256 ∧ floatValue (byte2float b) ≤ floatValue i ∧
        (b < 255 → floatValue i < floatValue (byte2float (b + 1))))) := by
  refine ⟨?_, ?_⟩
  · intro h
    unfold encodeNorm float2byte
    rw [if_pos h]
  · intro hp
    unfold Positive at hp
    have h1 : byte2float 1 = 385 * 2 ^ 21 := rfl
    unfold encodeNorm
    rw [float2byte_eq i hp.1 (by omega), h1]
    refine ⟨?_, ?_⟩
    · intro hlt
      have : i < 385 * 2 ^ 21 := by
        rcases Nat.lt_or_ge i (385 * 2 ^ 21) with h | h
        · exact h
        · have := floatValue_le _ _ h; omega
      split
      · omega
      · rw [if_pos (by omega)]; omega
    · intro hle
      have hge : 385 * 2 ^ 21 ≤ i := by
        rcases Nat.lt_or_ge i (385 * 2 ^ 21) with h | h
        · have := floatValue_lt _ _ h; omega
        · exact h
      clear hle
      rw [if_neg (by omega)]
      by_cases h2 : i < 640 * 2 ^ 21
      · rw [if_pos h2]
        refine ⟨_, rfl, by omega, by omega, floatValue_le _ _ ?_, ?_⟩
        · have h3 := byte2float_eq (i / 2 ^ 21 - 384) (by omega) (by omega)
          rw [h3, show i / 2 ^ 21 - 384 + 384 = i / 2 ^ 21 by omega]
          exact Nat.div_mul_le_self i (2 ^ 21)
        · intro hb
          apply floatValue_lt
          have h3 := byte2float_eq (i / 2 ^ 21 - 384 + 1) (by omega) (by omega)
          rw [h3, show i / 2 ^ 21 - 384 + 1 + 384 = i / 2 ^ 21 + 1 by omega, Nat.mul_comm]
          exact Nat.lt_mul_div_succ i (by decide)
      · rw [if_neg h2]
        refine ⟨255, rfl, by omega, by omega, floatValue_le _ _ ?_, fun h => absurd h (by omega)⟩
        rw [byte2float_eq _ (by omega) (by omega)]; omega

/-- **C13, order.** From the value of byte 1 on, a larger number does not get a smaller byte. -/
theorem c13_monotone_partial (i j : Nat) (hi : Positive i) (hj : Positive j) (h1 : floatValue (byte2float 1) ≤ floatValue i)
    (hij : floatValue i ≤ floatValue j) : encodeNorm i ≤ encodeNorm j := by
  have h1' : byte2float 1 = 385 * 2 ^ 21 := rfl
  rw [h1'] at h1
  unfold Positive at hi hj
  have hge : 385 * 2 ^ 21 ≤ i := by
    rcases Nat.lt_or_ge i (385 * 2 ^ 21) with h | h
    · have := floatValue_lt _ _ h; omega
    · exact h
  have hle : i ≤ j := by
    rcases Nat.lt_or_ge j i with h | h
    · have := floatValue_lt _ _ h; omega
    · exact h
  clear h1 hij
  unfold encodeNorm
  rw [float2byte_eq i hi.1 (by omega), float2byte_eq j hj.1 (by omega), if_neg (show ¬ i < 384 * 2 ^ 21 by omega),
    if_neg (show ¬ j < 384 * 2 ^ 21 by omega)]
  split
  · split <;> omega
  · rw [if_neg (by omega)]
    omega

/-- Below it, a larger number may get a smaller byte: bits 384·2^21 − 1 give 1, the next number
gives 0, the byte of a document that does not count. -/
theorem c13_monotone_wrong : Positive (384 * 2 ^ 21 - 1) ∧ Positive (384 * 2 ^ 21) ∧
    floatValue (384 * 2 ^ 21 - 1) < floatValue (384 * 2 ^ 21) ∧ encodeNorm (384 * 2 ^ 21 - 1) = 1 ∧ encodeNorm (384 * 2 ^ 21) = 0 :=
  ⟨by unfold Positive; decide, by unfold Positive; decide, floatValue_lt _ _ (by decide), by decide, by decide⟩

/-- 1.0 is byte 124, and 0.3 (0x3E99999A) is given 116, the byte of 0.25. -/
example : encodeNorm 0x3F800000 = 124 ∧ byte2float 124 = 0x3F800000 ∧ encodeNorm 0x3E99999A = 116 ∧ byte2float 116 = 0x3E800000 := by decide

#print axioms c13_decode
#print axioms c13_encode
#print axioms c13_monotone_partial
#print axioms c13_monotone_wrong
end Ferret.Props
