/-!
Ranges of positions (C47).
-/

namespace Ferret.Spec

/-- A range of positions, both ends included, and its score. -/
abbrev Range := (Int × Int) × Int

/-- Is a position in one of the ranges? -/
def coveredBy (rs : List Range) (p : Int) : Prop := ∃ r ∈ rs, r.1.1 ≤ p ∧ p ≤ r.1.2

/-- The ranges come in order and each starts more than `gap` after the end of any earlier one. -/
def apart (gap : Int) : List Range → Prop := List.Pairwise fun a b => a.1.2 + gap < b.1.1

/-- The scores of the ranges that start within a range, together. -/
def scoreWithin (rs : List Range) (r : Range) : Int :=
  ((rs.filter fun x => decide (r.1.1 ≤ x.1.1) && decide (x.1.1 ≤ r.1.2)).map (·.2)).sum

end Ferret.Spec
