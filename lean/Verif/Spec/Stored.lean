import Verif.Model.Basic
import Verif.Spec.Bytes

/-!
What a stored field with several data shows as one text (C18).
-/

namespace Ferret.Spec
open Ferret

/-- The data of a field as one text: separated by spaces. -/
def joined (ds : List (List Byte)) : List Byte := List.intercalate [32] ds

/-- Does a separator stand at this place of the joined text? -/
def onSeparator : List (List Byte) → Nat → Bool
  | [], _ => false
  | d :: ds, n => if n < d.length then false else if n = d.length then true else onSeparator ds (n - d.length - 1)

/-- What reading bytes of a field should give: the bytes asked for, an error if they are not all there or none
are asked for. -/
def bytesOf (ds : List (List Byte)) (start len : Int) : Res (List Byte) :=
  if 0 ≤ start ∧ 0 < len ∧ start + len ≤ (joined ds).length then
    .ok (((joined ds).drop start.toNat).take len.toNat)
  else .raise .io

end Ferret.Spec
