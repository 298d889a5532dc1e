/-! What filters keep about readers: what was computed first for a filter and a reader, as long as both are there. -/

namespace Ferret.Spec

/-- What a client does with filters and readers, each known by its address. `get f r v`: ask filter `f` for its documents
of reader `r`, which would be `v` if they were computed now. -/
inductive CacheOp (V : Type) where
  | newF (f : Nat)
  | newR (r : Nat)
  | get (f r : Nat) (v : V)
  | delF (f : Nat)
  | delR (r : Nat)

/-- The filters and readers there are, and what is kept for which of them. -/
structure Memo (V : Type) where
  fs : List Nat := []
  rs : List Nat := []
  kept : List (Nat × Nat × V) := []

variable {V : Type}

/-- One operation: the answer, and what is no longer kept. `none` for what no client may do: making what is there, or
using what is not. -/
def memoStep (m : Memo V) : CacheOp V → Option (Memo V × Option V × List V)
  | .newF f => if f ∈ m.fs then none else some ({ m with fs := f :: m.fs }, none, [])
  | .newR r => if r ∈ m.rs then none else some ({ m with rs := r :: m.rs }, none, [])
  | .get f r v =>
    if f ∈ m.fs ∧ r ∈ m.rs then
      match m.kept.find? (fun x => decide (x.1 = f ∧ x.2.1 = r)) with
      | some x => some (m, some x.2.2, [])
      | none => some ({ m with kept := m.kept ++ [(f, r, v)] }, some v, [])
    else none
  | .delF f =>
    if f ∈ m.fs then
      some ({ m with fs := m.fs.filter (fun x => decide (x ≠ f)), kept := m.kept.filter (fun x => decide (x.1 ≠ f)) }, none, (m.kept.filter (fun x => decide (x.1 = f))).map (·.2.2))
    else none
  | .delR r =>
    if r ∈ m.rs then
      some ({ m with rs := m.rs.filter (fun x => decide (x ≠ r)), kept := m.kept.filter (fun x => decide (x.2.1 ≠ r)) }, none, (m.kept.filter (fun x => decide (x.2.1 = r))).map (·.2.2))
    else none

/-- All operations: the answers, and everything that is no longer kept. -/
def memoRun (m : Memo V) : List (CacheOp V) → Option (Memo V × List (Option V) × List V)
  | [] => some (m, [], [])
  | op :: ops => (memoStep m op).bind fun x => (memoRun x.1 ops).map fun y => (y.1, x.2.1 :: y.2.1, x.2.2 ++ y.2.2)

end Ferret.Spec
