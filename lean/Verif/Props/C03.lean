import Verif.Props.C02
import Verif.Lemmas.BitVectorEq

/-! C03: equality of bit vectors is equality of contents, and implies equal hashes. -/

namespace Ferret.Props
open Ferret.BitVector Ferret.Spec

/-- **C03.** For any two vectors built by histories and boolean operations, `eq` is defined,
returns true exactly when all bits agree, and then the hashes agree. -/
theorem c03_eq_iff_same_bits (ea eb : BitExpr) :
    ∃ a b r, bvEval ea = .ok a ∧ bvEval eb = .ok b ∧ BitVector.eq a b = .ok r ∧
      (r = true ↔ ∀ i, ea.bit i = eb.bit i) ∧ (r = true → BitVector.hash a = BitVector.hash b) := by
  obtain ⟨a, e1, w1, _, g1⟩ := bvEval_spec ea
  obtain ⟨b, e2, w2, _, g2⟩ := bvEval_spec eb
  obtain ⟨r, h, hi⟩ := eq_iff a b w1 w2
  refine ⟨a, b, r, e1, e2, h, ?_, ?_⟩
  · rw [hi]; simp only [g1, g2]
  · intro hr; exact hash_congr a b (hi.mp hr)

/-- Non-vacuity: same contents through different histories and sizes; and a differing pair. -/
example : ∃ a b, bvEval (.hist [.set 3, .set 700, .unset 700]) = .ok a ∧ bvEval (.not (.not (.hist [.set 3]))) = .ok b ∧
    BitVector.eq a b = .ok true ∧ a.size ≠ b.size :=
  ⟨_, _, rfl, rfl, by decide, by decide⟩
example : ∃ a b, bvEval (.hist [.set 3]) = .ok a ∧ bvEval (.not (.hist [.set 3])) = .ok b ∧
    BitVector.eq a b = .ok false := ⟨_, _, rfl, rfl, by decide⟩

#print axioms c03_eq_iff_same_bits

end Ferret.Props
