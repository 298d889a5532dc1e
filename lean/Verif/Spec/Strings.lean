import Verif.Spec.Bytes

/-! Matching, order and edit distance of byte strings. -/

namespace Ferret.Spec
open Ferret

/-- What a character of a wildcard pattern may be replaced by: `?` (63) by one byte, `*` (42) by any
string, others by themselves. -/
def fills (c : Byte) (r : List Byte) : Prop :=
  if c = 63 then r.length = 1 else if c = 42 then True else r = [c]

/-- The text is the pattern with each character replaced in turn. -/
inductive Glob : List Byte → List Byte → Prop
  | nil : Glob [] []
  | cons {c : Byte} {p r t : List Byte} : fills c r → Glob p t → Glob (c :: p) (r ++ t)

/-- One edit: insert, delete or replace a byte anywhere. -/
inductive Edit : List Byte → List Byte → Prop
  | insert (a b : List Byte) (x : Byte) : Edit (a ++ b) (a ++ x :: b)
  | delete (a b : List Byte) (x : Byte) : Edit (a ++ x :: b) (a ++ b)
  | replace (a b : List Byte) (x y : Byte) : Edit (a ++ x :: b) (a ++ y :: b)

inductive Edits : Nat → List Byte → List Byte → Prop
  | done (s : List Byte) : Edits 0 s s
  | step {n : Nat} {s t u : List Byte} : Edits n s t → Edit t u → Edits (n + 1) s u

/-- The Levenshtein distance: the least number of edits. -/
def IsDistance (s t : List Byte) (n : Nat) : Prop := Edits n s t ∧ ∀ m, Edits m s t → n ≤ m

end Ferret.Spec
