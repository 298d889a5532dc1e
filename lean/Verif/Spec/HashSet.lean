/-!
What an insertion-ordered set does: a list of pairwise different elements, the oldest first.
-/

namespace Ferret.Spec

variable {K : Type}

inductive SOp (K : Type) where
  | add (k : K)
  | addSafe (k : K)
  | rem (k : K)
  | del (k : K)
  | exist (k : K)
  | orig (k : K)
  | count
  | elems
  | clear
  | merge (other : List K)

inductive SObs (K : Type) where
  | unit
  | absent | equal | same
  | bool (b : Bool)
  | elem (k : Option K)
  | num (n : Nat)
  | list (l : List K)
  deriving DecidableEq

def sfind (eq : K → K → Bool) (l : List K) (k : K) : Option K := l.find? (fun x => eq x k)

def sdel (eq : K → K → Bool) (l : List K) (k : K) : List K := l.filter (fun x => !eq x k)

/-- Add an element at the end unless an equal one is there. -/
def sadd (eq : K → K → Bool) (l : List K) (k : K) : List K :=
  if (sfind eq l k).isSome then l else l ++ [k]

def sstatus (eq same : K → K → Bool) (l : List K) (k : K) : SObs K :=
  match sfind eq l k with
  | none => .absent
  | some x => if same x k then .same else .equal

def sstep (eq same : K → K → Bool) (l : List K) : SOp K → SObs K × List K
  | .add k => (sstatus eq same l k, sadd eq l k)
  | .addSafe k =>
    (match sfind eq l k with
     | none => .bool true
     | some x => .bool (same x k), sadd eq l k)
  | .rem k => (.elem (sfind eq l k), sdel eq l k)
  | .del k => (.bool (sfind eq l k).isSome, sdel eq l k)
  | .exist k => (sstatus eq same l k, l)
  | .orig k => (.elem (sfind eq l k), l)
  | .count => (.num l.length, l)
  | .elems => (.list l, l)
  | .clear => (.unit, [])
  | .merge other => (.unit, (other.foldl (sadd eq) []).foldl (sadd eq) l)

def srun (eq same : K → K → Bool) (l : List K) : List (SOp K) → List (SObs K) × List K
  | [] => ([], l)
  | op :: ops =>
    let r := sstep eq same l op
    let r' := srun eq same r.2 ops
    (r.1 :: r'.1, r'.2)

end Ferret.Spec
