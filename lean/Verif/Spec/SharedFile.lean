import Verif.Spec.Bytes

/-! What a thread that reads a file alone sees. -/

namespace Ferret.Spec
open Ferret

inductive RCmd where
  | byte | seek (p : Nat)
  deriving DecidableEq

inductive RObs where
  | byte (b : Byte) | eof | done
  deriving DecidableEq

/-- One command at a position of the file. -/
def aloneStep (content : List Byte) (p : Nat) : RCmd → RObs × Nat
  | .byte => match content[p]? with
    | some b => (.byte b, p + 1)
    | none => (.eof, p)
  | .seek q => (.done, q)

/-- What the commands give, beginning at a position. -/
def alone (content : List Byte) : Nat → List RCmd → List RObs
  | _, [] => []
  | p, c :: cs => (aloneStep content p c).1 :: alone content (aloneStep content p c).2 cs

end Ferret.Spec
