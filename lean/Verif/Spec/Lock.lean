/-!
Who holds a lock, from the point of view of the clients: a client holds it from the moment its
request is granted until it gives the lock back.
-/

namespace Ferret.Spec

inductive LObs where
  /-- the request of a client is granted -/
  | got (c : Nat)
  /-- the request of a client is refused -/
  | refused (c : Nat)
  /-- the client gives the lock back, or believes it does -/
  | gave (c : Nat)
  /-- the client is told whether the lock is taken -/
  | told (c : Nat) (b : Bool)
  deriving DecidableEq

/-- Whether `c` holds the lock after `tr`; the latest observation comes last. -/
def holding (c : Nat) (tr : List LObs) : Bool :=
  tr.foldl (fun b o => match o with
    | .got d => if d = c then true else b
    | .gave d => if d = c then false else b
    | _ => b) false

/-- At no time do two clients hold the lock. -/
def Exclusive (tr : List LObs) : Prop :=
  ∀ pre, pre <+: tr → ∀ c d, holding c pre = true → holding d pre = true → c = d

end Ferret.Spec
