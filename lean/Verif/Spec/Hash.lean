/-!
What a map from keys to values does, independently of how it is stored.

`eq` is the equality of keys the caller chose, `same` tells whether two keys are one object. A map
is a list of pairs with pairwise different keys; nothing observable depends on its order.
-/

namespace Ferret.Spec

variable {K V : Type}

inductive HOp (K V : Type) where
  | set (k : K) (v : V)
  | setSafe (k : K) (v : V)
  | get (k : K)
  | has (k : K)
  | del (k : K)
  | rem (k : K)
  | count
  | clear

inductive HObs (V : Type) where
  | unit
  | absent | equal | same
  | bool (b : Bool)
  | val (v : Option V)
  | num (n : Nat)
  deriving DecidableEq

/-- The pair whose key equals `k`. -/
def mfind (eq : K → K → Bool) (m : List (K × V)) (k : K) : Option (K × V) := m.find? (fun p => eq p.1 k)

/-- The map without `k`. -/
def mdel (eq : K → K → Bool) (m : List (K × V)) (k : K) : List (K × V) := m.filter (fun p => !eq p.1 k)

def mstatus (eq same : K → K → Bool) (m : List (K × V)) (k : K) : HObs V :=
  match mfind eq m k with
  | none => .absent
  | some p => if same p.1 k then .same else .equal

def hstep (eq same : K → K → Bool) (m : List (K × V)) : HOp K V → HObs V × List (K × V)
  | .set k v => (mstatus eq same m k, (k, v) :: mdel eq m k)
  | .setSafe k v =>
    match mfind eq m k with
    | none => (.bool true, (k, v) :: m)
    | some _ => (.bool false, m)
  | .get k => (.val ((mfind eq m k).map (·.2)), m)
  | .has k => (mstatus eq same m k, m)
  | .del k => (.bool (mfind eq m k).isSome, mdel eq m k)
  | .rem k => (.val ((mfind eq m k).map (·.2)), mdel eq m k)
  | .count => (.num m.length, m)
  | .clear => (.unit, [])

def hrun (eq same : K → K → Bool) (m : List (K × V)) : List (HOp K V) → List (HObs V) × List (K × V)
  | [] => ([], m)
  | op :: ops =>
    let r := hstep eq same m op
    let r' := hrun eq same r.2 ops
    (r.1 :: r'.1, r'.2)

end Ferret.Spec
