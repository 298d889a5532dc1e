import Verif.Spec.Bytes

/-!
Replacing patterns in a text, with no reference to an automaton: the text is read from left to right; as soon as
some pattern ends, the longest pattern that ends there is replaced, and reading goes on after it.
-/

namespace Ferret.Spec

/-- `r` is what was last given as the replacement of `p`. -/
def LastGiven (maps : List (List Byte × List Byte)) (p r : List Byte) : Prop :=
  ∃ a b, maps = a ++ (p, r) :: b ∧ ∀ m ∈ b, m.1 ≠ p

/-- `Mapped maps text out`: `out` is `text` with the patterns of `maps` replaced.

* `same`: no pattern occurs, nothing changes;
* `replace`: `p` is the first pattern to end (nothing occurs in what is before its last byte), and the longest that
  ends there; what is before it is kept, it is replaced, and the rest of the text is mapped in its own right. -/
inductive Mapped (maps : List (List Byte × List Byte)) : List Byte → List Byte → Prop
  | same (u) (none : ∀ m ∈ maps, ¬ m.1 <:+: u) : Mapped maps u u
  | replace (u p r rest out) (given : LastGiven maps p r)
      (first : ∀ m ∈ maps, ¬ m.1 <:+: (u ++ p).dropLast)
      (longest : ∀ m ∈ maps, m.1 <:+ u ++ p → m.1.length ≤ p.length)
      (more : Mapped maps rest out) : Mapped maps (u ++ p ++ rest) (u ++ r ++ out)

end Ferret.Spec
