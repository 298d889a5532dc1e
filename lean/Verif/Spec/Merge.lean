/-! Specification vocabulary for merging: documents that are not deleted are numbered through. -/

namespace Ferret.Spec

/-- How many of the documents before `n` are not deleted. -/
def liveBefore (dead : Nat → Bool) (n : Nat) : Nat := ((List.range n).filter fun i => !dead i).length

/-- Those of a list that are not deleted; the first of it has number `j`. -/
def keep {α : Type} (dead : Nat → Bool) : Nat → List α → List α
  | _, [] => []
  | j, x :: xs => if dead j then keep dead (j + 1) xs else x :: keep dead (j + 1) xs

end Ferret.Spec
