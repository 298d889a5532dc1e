/-!
Walking through an ascending list of documents with "next" and "go to", independent of the
code.
-/

namespace Ferret.Spec

/-- One step of a user of an enumeration. -/
inductive Move where
  | next
  | skip (n : Int)
  deriving DecidableEq, Repr

variable {F : Type}

/-- What a move leaves of the entries not yet visited: `next` takes the first of them, `skip n`
the first with a number `≥ n`. -/
def Move.from : Move → List (Int × F) → List (Int × F)
  | .next, l => l
  | .skip n, l => l.dropWhile (fun e => e.1 < n)

/-- The entries visited by a sequence of moves through `l` (`none`: there is no such entry, and
no entry is left afterwards). -/
def walk (l : List (Int × F)) : List Move → List (Option (Int × F))
  | [] => []
  | m :: ms => match m.from l with
    | [] => none :: walk [] ms
    | e :: rest => some e :: walk rest ms

/-- The same, stopping at the first unsuccessful move. -/
def walkStop (l : List (Int × F)) : List Move → List (Option (Int × F))
  | [] => []
  | m :: ms => match m.from l with
    | [] => [none]
    | e :: rest => some e :: walkStop rest ms

/-- Every `skip` aims past the current document. -/
def ahead (cur : Int) (l : List (Int × F)) : List Move → Prop
  | [] => True
  | m :: ms => (∀ n, m = .skip n → cur < n) ∧
    match m.from l with
    | [] => True
    | e :: rest => ahead e.1 rest ms

end Ferret.Spec
