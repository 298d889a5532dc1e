/-! What a growable array of pointers holds: a list of values, absent ones being NULL. -/

namespace Ferret.Spec

/-- The calls on a growable array. -/
inductive ArrOp (V : Type) where
  | set (i : Int) (v : Option V)
  | get (i : Int)
  | push (v : Option V)
  | pop
  | unshift (v : Option V)
  | shift
  | remove (i : Int)
  | delete (i : Int)

/-- What a call gives back: nothing, a value, the value handed to the function that frees
elements, or an index error. -/
inductive ArrOut (V : Type) where
  | done
  | value (v : Option V)
  | freed (v : Option V)
  | indexError
  deriving DecidableEq

/-- Negative indexes count from the end. -/
def fromEnd (n : Nat) (i : Int) : Int := if i < 0 then i + n else i

/-- The values `xs` with `v` at index `i`; indexes in between hold NULL. -/
def putAt {V : Type} (xs : List (Option V)) (i : Nat) (v : Option V) : List (Option V) :=
  (xs ++ List.replicate (i + 1 - xs.length) none).set i v

/-- The list after a call and what the call gives. -/
def arrStep {V : Type} (xs : List (Option V)) : ArrOp V → List (Option V) × ArrOut V
  | .set i v =>
    if fromEnd xs.length i < 0 then (xs, .indexError)
    else (putAt xs (fromEnd xs.length i).toNat v, .done)
  | .get i =>
    if fromEnd xs.length i < 0 then (xs, .value none)
    else (xs, .value (xs[(fromEnd xs.length i).toNat]?).join)
  | .push v => (xs ++ [v], .done)
  | .pop => (xs.dropLast, .value xs.getLast?.join)
  | .unshift v => (v :: xs, .done)
  | .shift => (xs.tail, .value xs.head?.join)
  | .remove i =>
    if i < 0 then (xs, .value none) else (xs.eraseIdx i.toNat, .value (xs[i.toNat]?).join)
  | .delete i =>
    if i < 0 then (xs, .freed none) else (xs.eraseIdx i.toNat, .freed (xs[i.toNat]?).join)

/-- The list after a sequence of calls and what each gives. -/
def arrRun {V : Type} (xs : List (Option V)) : List (ArrOp V) → List (Option V) × List (ArrOut V)
  | [] => (xs, [])
  | op :: ops =>
    let r := arrStep xs op
    let q := arrRun r.1 ops
    (q.1, r.2 :: q.2)

end Ferret.Spec
