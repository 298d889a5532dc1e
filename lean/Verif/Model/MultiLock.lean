import Verif.Model.WriterLock

/-!
Changes that are made through a reader of several indexes, and the write locks of the indexes: mr_open, index.c 5039–5095, with ir_setup 3923–3944, ir_acquire_not_necessary 3877–3879; ir_set_norm_i 3972–3979 with
mr_set_norm_i 4879–4889; ir_delete_doc and ir_undelete_all 4024–4041 with mr_delete_doc_i and mr_undelete_all_i 4891–4914; ir_commit_i 4100–4133 with mr_commit_i 4936–4944.

What writers and readers of one index do is `Verif.Model.WriterLock`. A reader of several indexes with number `m` reads index `i` with the reader `m` of that index, which it opened (or was given). What is set, deleted or
committed is not modelled, nor is what happens after an exception in the threaded build.
-/

namespace Ferret.MLock
open Ferret.WLock
open Ferret.Spec (WObs)
open Ferret.Lock (Kind)

/-- The indexes, and has_changes of the readers of several. -/
structure MState where
  idx : Nat → State
  dirty : Nat → Bool

inductive MCall where
  /-- a writer or a reader of index `i` does something -/
  | one (i : Nat) (e : Call)
  | openMulti (m : Nat)
  /-- the reader `m` of several sets a norm of a document of index `i` -/
  | normVia (m i : Nat)
  /-- it deletes a document of index `i`, or undeletes all documents: index `i` is one of those that are changed -/
  | deleteVia (m i : Nat)
  | commitVia (m : Nat)

def setIdx (f : Nat → State) (i : Nat) (s : State) : Nat → State := fun j => if j = i then s else f j

/-- A call to one index. -/
def stepAt (k : Kind) (f : Nat → State) (i : Nat) (e : Call) : Option (List (Nat × WObs) × (Nat → State)) :=
  (step k (f i) e).map fun r => (r.1.map fun o => (i, o), setIdx f i r.2)

/-- The loops over the readers: mr_open and mr_commit_i. -/
def each (k : Kind) (e : Call) : List Nat → (Nat → State) → Option (List (Nat × WObs) × (Nat → State))
  | [], f => some ([], f)
  | i :: is, f => (stepAt k f i e).bind fun r => (each k e is r.2).map fun r' => (r.1 ++ r'.1, r'.2)

/-- mr_delete_doc_i and mr_undelete_all_i call `delete_doc_i` and `undelete_all_i` of the reader of the index, which set has_changes, index.c 4330–4351, but do not acquire the lock. -/
def deleteAt (f : Nat → State) (i m : Nat) : Option (List (Nat × WObs) × (Nat → State)) :=
  match (f i).cl m with
  | .reader r => some ([(i, .changed m)], setIdx f i (put (f i) m (.reader { r with changes := true })))
  | _ => none

/-- One call, with `n` indexes. -/
def mstep (k : Kind) (n : Nat) (s : MState) : MCall → Option (List (Nat × WObs) × MState)
  | .one i e => (stepAt k s.idx i e).map fun r => (r.1, { s with idx := r.2 })
  | .openMulti m => (each k (.openReader m) (List.range n) s.idx).map fun r => (r.1, { s with idx := r.2 })
  | .normVia m i => (stepAt k s.idx i (.change m)).map fun r => (r.1, ⟨r.2, fun d => if d = m then true else s.dirty d⟩)
  | .deleteVia m i => (deleteAt s.idx i m).map fun r => (r.1, ⟨r.2, fun d => if d = m then true else s.dirty d⟩)
  | .commitVia m =>
    if s.dirty m then (each k (.commitReader m) (List.range n) s.idx).map fun r => (r.1, ⟨r.2, fun d => if d = m then false else s.dirty d⟩)
    else some ([], s)

def mrun (k : Kind) (n : Nat) (s : MState) : List MCall → Option (List (Nat × WObs) × MState)
  | [] => some ([], s)
  | e :: es => (mstep k n s e).bind fun r => (mrun k n r.2 es).map fun r' => (r.1 ++ r'.1, r'.2)

/-- Indexes at some versions, without readers and writers. -/
def minit (v : Nat → Nat) : MState := ⟨fun i => init (v i), fun _ => false⟩

end Ferret.MLock
