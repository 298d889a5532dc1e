/-!
What the 32 bits of a `float` mean (IEEE 754, binary32), for C13.
-/

namespace Ferret.Spec

/-- The value of a positive finite float, in units of 2^-149, from its bits: 8 bits of exponent and
23 of fraction. -/
def floatValue (i : Nat) : Nat :=
  let e := i / 2 ^ 23
  let m := i % 2 ^ 23
  if e = 0 then m else (2 ^ 23 + m) * 2 ^ (e - 1)

/-- The bits of a positive number: not zero, no sign, not infinite, not a NaN. -/
def Positive (i : Nat) : Prop := 0 < i ∧ i < 0x7F800000

end Ferret.Spec
