/-!
Writers and readers that change an index, as seen from the results of their calls.
-/

namespace Ferret.Spec

inductive WObs where
  /-- a writer was opened -/
  | opened (c : Nat)
  /-- opening a writer, or a change through a reader, failed because the index is locked -/
  | locked (c : Nat)
  /-- a change through a reader failed because the reader is out of date -/
  | outOfDate (c : Nat)
  /-- a change through a reader was accepted -/
  | changed (c : Nat)
  /-- the changes of a client, made to version `base`, became version `now` of the index -/
  | commit (c base now : Nat)
  /-- the client is done: the writer was closed, or the reader's changes are committed -/
  | done (c : Nat)
  /-- a client was told whether the index is locked -/
  | told (c : Nat) (b : Bool)
  /-- a reader was opened -/
  | openedReader (c : Nat)
  deriving DecidableEq

/-- Whether `c` is an open writer or has changes accepted and not yet committed. -/
def modifying (c : Nat) (tr : List WObs) : Bool :=
  tr.foldl (fun b o => match o with
    | .opened d => if d = c then true else b
    | .changed d => if d = c then true else b
    | .done d => if d = c then false else b
    | _ => b) false

/-- At no time are two clients modifying the index. -/
def OneModifier (tr : List WObs) : Prop :=
  ∀ pre, pre <+: tr → ∀ c d, modifying c pre = true → modifying d pre = true → c = d

/-- The version of the index, which was `v` at first. -/
def versionAfter (v : Nat) (tr : List WObs) : Nat :=
  tr.foldl (fun v o => match o with
    | .commit _ _ n => n
    | _ => v) v

/-- Every commit is based on the version of the index it replaces, and replaces it by a newer one: no
committed change is overwritten. -/
def NoLostUpdate (v : Nat) (tr : List WObs) : Prop :=
  ∀ pre c base now, pre ++ [.commit c base now] <+: tr → base = versionAfter v pre ∧ base < now

def disturbing : WObs → Bool
  | .locked _ => true
  | .told _ _ => true
  | _ => false

/-- Nobody was refused because of the lock, nor asked about it. -/
def Undisturbed (tr : List WObs) : Prop := ∀ o ∈ tr, disturbing o = false

end Ferret.Spec
