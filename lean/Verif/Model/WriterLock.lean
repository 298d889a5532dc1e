import Verif.Spec.WriterLock
import Verif.Model.Lock

/-!
Model of how writers and readers use the write lock and the version of the index: iw_open 6484–6525,
iw_close 6462–6482, ir_acquire_write_lock 3882–3918, ir_set_norm_i / ir_undelete_all / ir_delete_doc
3972–4040, ir_commit_i 4100–4133, index_is_locked 6175–6181, the version in sis_write 1141 and
sis_read_current_version 1188, all in index.c.

Each call is atomic, calls of different clients interleave. Clients are numbered, a number is used for
one writer or one reader. The build is the one of the Ruby binding, without threads
(ruby/ext/threading.h): in the threaded build a reader whose change was refused stays locked in its own
mutex, 3974 and 3894. What the commits contain is not modelled, only their version.
-/

namespace Ferret.WLock
open Ferret.Spec (WObs)
open Ferret.Lock (Kind)

structure Rd where
  /-- sis->version -/
  ver : Nat
  stale : Bool
  /-- write_lock is not NULL -/
  lock : Bool
  changes : Bool

inductive Client where
  | unused
  /-- an open writer, with its sis->version -/
  | writer (ver : Nat)
  | reader (r : Rd)
  | closed

structure State where
  /-- whether the lock file exists -/
  file : Bool
  /-- the version in the segments file -/
  ver : Nat
  cl : Nat → Client

inductive Call where
  | openWriter (c : Nat)
  | commitWriter (c : Nat)
  | closeWriter (c : Nat)
  | openReader (c : Nat)
  | change (c : Nat)
  | commitReader (c : Nat)
  | isLocked (c : Nat)

def init (v : Nat) : State := ⟨false, v, fun _ => .unused⟩

def put (s : State) (c : Nat) (x : Client) : State := { s with cl := fun d => if d = c then x else s.cl d }

/-- ir_acquire_write_lock and the change it guards, index.c 3882–3918 and 3972–4040. -/
def change (s : State) (c : Nat) (r : Rd) : List WObs × State :=
  if r.stale then ([.outOfDate c], s)
  else if r.lock then ([.changed c], put s c (.reader { r with changes := true }))
  else if s.file then ([.locked c], put s c (.reader { r with lock := true }))     -- write_lock stays set, 3892–3894
  else if s.ver > r.ver then ([.outOfDate c], put s c (.reader { r with stale := true }))   -- lock released, 3906–3908
  else ([.changed c], put { s with file := true } c (.reader { r with lock := true, changes := true }))

/-- One call; `none` when it is not possible for that client. -/
def step (k : Kind) (s : State) : Call → Option (List WObs × State)
  | .openWriter c => match s.cl c with
    | .unused =>
      if s.file then some ([.locked c], put { s with file := false } c .closed)    -- release and close_lock, 6506–6509
      else some ([.opened c], put { s with file := true } c (.writer s.ver))
    | _ => none
  | .commitWriter c => match s.cl c with
    | .writer v => some ([.commit c v (v + 1)], put { s with ver := v + 1 } c (.writer (v + 1)))
    | _ => none
  | .closeWriter c => match s.cl c with
    | .writer _ => some ([.done c], put { s with file := false } c .closed)
    | _ => none
  | .openReader c => match s.cl c with
    | .unused => some ([.openedReader c], put s c (.reader ⟨s.ver, false, false, false⟩))
    | _ => none
  | .change c => match s.cl c with
    | .reader r => some (change s c r)
    | _ => none
  | .commitReader c => match s.cl c with
    | .reader r =>
      if r.changes then
        some ([.commit c r.ver (r.ver + 1), .done c],
          put { s with ver := r.ver + 1, file := if r.lock then false else s.file } c (.reader ⟨r.ver + 1, r.stale, false, false⟩))
      else some ([], s)
    | _ => none
  | .isLocked c => match k with
    | .fs => some ([.told c s.file], { s with file := false })                     -- fs_close_lock_i removes the file
    | .ram => some ([.told c s.file], s)

def run (k : Kind) (s : State) : List Call → Option (List WObs × State)
  | [] => some ([], s)
  | e :: es => (step k s e).bind fun r => (run k r.2 es).map fun r' => (r.1 ++ r'.1, r'.2)

end Ferret.WLock
