import Verif.Spec.Bytes

/-!
A text with tags (C46): the text is cut before and after each tagged part.
-/

namespace Ferret.Spec
open Ferret

/-- A text cut into parts: what is before a tagged part and the tagged part, repeatedly, and the rest. -/
structure Cuts where
  parts : List (List Byte × List Byte)
  rest : List Byte

/-- The text without tags. -/
def Cuts.plain (c : Cuts) : List Byte := (c.parts.map fun p => p.1 ++ p.2).flatten ++ c.rest

/-- The text with tags. -/
def Cuts.tagged (pre post : List Byte) (c : Cuts) : List Byte := (c.parts.map fun p => p.1 ++ pre ++ p.2 ++ post).flatten ++ c.rest

/-- The `i`th tagged part is the text from offset `s` to offset `e`. -/
def Cuts.tagsFrom (c : Cuts) (i : Nat) (s e : Int) : Prop :=
  ∃ p, c.parts[i]? = some p ∧ ((((c.parts.take i).map fun p => p.1 ++ p.2).flatten ++ p.1).length : Int) = s ∧ s + p.2.length = e

end Ferret.Spec
