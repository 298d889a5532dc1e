/-! Specification vocabulary for bit vectors: plain histories and boolean functions. -/

namespace Ferret.Spec

/-- A mutation a client performs on a bit vector. -/
inductive BitAct where
  | set (i : Nat)
  | unset (i : Nat)
  | clear
  deriving DecidableEq, Repr

/-- The value a client expects at index `i` after a history: the last write wins, clear
resets everything, the initial value is 0. -/
def bitAfter (acts : List BitAct) (i : Nat) : Bool :=
  acts.foldl (fun b a => match a with
    | .set j => if j = i then true else b
    | .unset j => if j = i then false else b
    | .clear => false) false

/-- How many indices below `n` satisfy `f`. -/
def numTrue (f : Nat → Bool) (n : Nat) : Nat := ((List.range n).filter f).length

/-- A vector a client can build: a history from empty, or a boolean combination. -/
inductive BitExpr where
  | hist (acts : List BitAct)
  | and (a b : BitExpr)
  | or (a b : BitExpr)
  | xor (a b : BitExpr)
  | not (a : BitExpr)
  deriving Repr

/-- The bit a client expects at index `i`, at every index. -/
def BitExpr.bit : BitExpr → Nat → Bool
  | .hist acts, i => bitAfter acts i
  | .and a b, i => a.bit i && b.bit i
  | .or a b, i => a.bit i || b.bit i
  | .xor a b, i => a.bit i ^^ b.bit i
  | .not a, i => !a.bit i

/-- Whether the infinite tail of the vector is ones. -/
def BitExpr.tail : BitExpr → Bool
  | .hist _ => false
  | .and a b => a.tail && b.tail
  | .or a b => a.tail || b.tail
  | .xor a b => a.tail ^^ b.tail
  | .not a => !a.tail

end Ferret.Spec
