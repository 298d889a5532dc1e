import Verif.Model.Hash

/-!
The probe sequence of the hash table visits every slot.
-/

namespace Ferret.Hash

/-- `x ↦ 5x + 1`, `n` times. -/
def iter5 : Nat → Nat → Nat
  | 0, x => x
  | n + 1, x => iter5 n (nextI x 0)

theorem iter5_add (m n x : Nat) : iter5 (m + n) x = iter5 n (iter5 m x) := by
  induction m generalizing x with
  | zero => simp [iter5]
  | succ m ih => rw [Nat.succ_add]; simp only [iter5]; exact ih _

theorem iter5_pow (k : Nat) : ∃ a b, ∀ x, iter5 (2 ^ k) x = x + 2 ^ (k + 2) * a * x + 2 ^ k * (2 * b + 1) := by
  induction k with
  | zero => exact ⟨1, 0, fun x => by simp only [Nat.pow_zero, iter5, nextI]; omega⟩
  | succ k ih =>
    obtain ⟨a, b, h⟩ := ih
    generalize hp : 2 ^ k = p at h
    have e1 : 2 ^ (k + 1) = 2 * p := by rw [Nat.pow_succ, hp]; omega
    have e2 : 2 ^ (k + 2) = 4 * p := by rw [Nat.pow_succ, e1]; omega
    have e3 : 2 ^ (k + 1 + 2) = 8 * p := by rw [Nat.pow_succ, show k + 1 + 1 = k + 2 from rfl, e2]; omega
    refine ⟨a + 2 * p * a * a, b + p * a * (2 * b + 1), fun x => ?_⟩
    have e4 : (2 : Nat) ^ (k + 1) = 2 ^ k + 2 ^ k := by rw [Nat.pow_succ]; omega
    rw [e3, e4, iter5_add, hp]
    rw [h, h, e2]
    grind

theorem iter5_cover (k : Nat) : ∀ x y, ∃ n, n < 2 ^ k ∧ iter5 n x % 2 ^ k = y % 2 ^ k := by
  induction k with
  | zero => intro x y; exact ⟨0, by omega, by simp only [Nat.pow_zero, Nat.mod_one]⟩
  | succ k ih =>
    intro x y
    obtain ⟨n, hn, h⟩ := ih x y
    obtain ⟨a, b, hq⟩ := iter5_pow k
    have hp : 0 < 2 ^ k := Nat.two_pow_pos k
    have e1 : 2 ^ (k + 1) = 2 * 2 ^ k := by rw [Nat.pow_succ]; omega
    by_cases h2 : iter5 n x % 2 ^ (k + 1) = y % 2 ^ (k + 1)
    · exact ⟨n, by omega, h2⟩
    · refine ⟨n + 2 ^ k, by omega, ?_⟩
      rw [iter5_add, hq]
      generalize iter5 n x = z at *
      have e2 : 2 ^ (k + 2) = 2 ^ (k + 1) * 2 := Nat.pow_succ _ _
      have hz : z + 2 ^ (k + 2) * a * z + 2 ^ k * (2 * b + 1) = (z + 2 ^ k) + 2 ^ (k + 1) * (2 * a * z + b) := by
        rw [e2, Nat.mul_add, Nat.mul_one]
        have : 2 ^ k * (2 * b) = 2 ^ (k + 1) * b := by rw [e1, ← Nat.mul_assoc, Nat.mul_comm (2 ^ k) 2]
        rw [this, Nat.mul_add, ← Nat.mul_assoc, ← Nat.mul_assoc]
        omega
      rw [hz, Nat.add_mul_mod_self_left]
      generalize 2 ^ k = p at *
      rw [e1] at h2 ⊢
      have hz1 := Nat.mod_mul (x := z) (a := p) (b := 2)
      have hy1 := Nat.mod_mul (x := y) (a := p) (b := 2)
      have hw1 := Nat.mod_mul (x := z + p) (a := p) (b := 2)
      rw [Nat.mul_comm 2 p] at h2 ⊢
      have hd : (z + p) / p = z / p + 1 := Nat.add_div_right z hp
      have hm : (z + p) % p = z % p := Nat.add_mod_right z p
      rw [hw1, hy1, hm, hd, h]
      rw [hz1, hy1, h] at h2
      have : (z / p) % 2 ≠ (y / p) % 2 := fun he => h2 (by rw [he])
      have : (z / p + 1) % 2 = (y / p) % 2 := by omega
      rw [this]

/-- The n-th index of a probe, before reduction, and the n-th perturbation. -/
def seqP (h : UInt64) : Nat → Nat
  | 0 => h.toNat
  | n + 1 => shiftP (seqP h n)

def seqI (h : UInt64) (cap : Nat) : Nat → Nat
  | 0 => h.toNat % cap
  | n + 1 => nextI (seqI h cap n) (seqP h n)

theorem seqP_13 (h : UInt64) (n : Nat) : seqP h (13 + n) = 0 := by
  induction n with
  | zero =>
    have := h.toNat_lt
    simp only [seqP, shiftP]
    omega
  | succ n ih => rw [← Nat.add_assoc]; simp only [seqP, ih, shiftP]

theorem seqI_13 (h : UInt64) (cap n : Nat) : seqI h cap (13 + n) = iter5 n (seqI h cap 13) := by
  have hs : ∀ n x, iter5 (n + 1) x = nextI (iter5 n x) 0 := by
    intro n x
    rw [iter5_add]; rfl
  induction n with
  | zero => rfl
  | succ n ih => rw [hs, ← ih]; show nextI (seqI h cap (13 + n)) (seqP h (13 + n)) = _; rw [seqP_13]

/-- The n-th slot of a probe. -/
def slotN (h : UInt64) (cap n : Nat) : Nat := seqI h cap n % cap

theorem slotN_cover (h : UInt64) (k j : Nat) (hj : j < 2 ^ k) : ∃ n, n < 2 ^ k + 13 ∧ slotN h (2 ^ k) n = j := by
  obtain ⟨n, hn, he⟩ := iter5_cover k (seqI h (2 ^ k) 13) j
  refine ⟨13 + n, by omega, ?_⟩
  rw [slotN, seqI_13, he, Nat.mod_eq_of_lt hj]

end Ferret.Hash
