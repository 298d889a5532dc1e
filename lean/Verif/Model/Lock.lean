import Verif.Spec.Lock

/-!
Model of locks: fs_store.c 352–414 and ram_store.c 377–416, with the clients in index.c 6484–6514
(iw_open), 6474–6476 (iw_close), 6175–6181 (index_is_locked), 3891–3908 (ir_acquire_write_lock).

One lock name, any number of clients; a client is a thread or a process with its own Lock object. The
steps are the system calls on the lock file, or the calls on the in-memory directory, each atomic; the
steps of different clients interleave in any way. Errors other than "the file exists" are not
modelled, nor the sleep between two tries.
-/

namespace Ferret.Lock
open Ferret.Spec (LObs)

/-- Where a client is. -/
inductive PC where
  | idle
  /-- in the loop of fs_lock_obtain, fs_store.c 358–365, with `trys` left -/
  | trying (trys : Nat)
  /-- in fs_lock_is_locked between `open` and `remove`, fs_store.c 377–379 -/
  | probing
  /-- in ram_lock_obtain between ram_exists and ram_touch, ram_store.c 382–385, with `ret` -/
  | checked (ret : Bool)
  deriving DecidableEq

structure State where
  /-- whether the lock file exists -/
  file : Bool
  pc : Nat → PC

def init : State := ⟨false, fun _ => .idle⟩

def setPC (s : State) (c : Nat) (p : PC) : State := { s with pc := fun d => if d = c then p else s.pc d }

/-- The two kinds of store. -/
inductive Kind where
  | fs | ram
  deriving DecidableEq

/-- LOCK_OBTAIN_TIMEOUT, fs_store.c 352. -/
def timeout : Nat := 10

/-- What client does next. -/
inductive Ev where
  | obtain (c : Nat)   -- call lock->obtain
  | step (c : Nat)     -- continue the call in progress
  | isLocked (c : Nat) -- call lock->is_locked
  | release (c : Nat)  -- call lock->release
  | close (c : Nat)    -- close_lock
  deriving DecidableEq

def Ev.client : Ev → Nat
  | .obtain c | .step c | .isLocked c | .release c | .close c => c

/-- One try of `open(O_CREAT | O_EXCL)`, fs_store.c 358–372. -/
def tryOpen (s : State) (c trys : Nat) : List LObs × State :=
  if s.file = false then ([.got c], setPC { s with file := true } c .idle)
  else match trys with
    | 0 => ([.refused c], setPC s c .idle)
    | n + 1 => ([], setPC s c (.trying n))

/-- A step of the system; `none` when the client is busy with another call, or has none to continue. -/
def step (k : Kind) (s : State) : Ev → Option (List LObs × State)
  | .obtain c =>
    if s.pc c ≠ .idle then none
    else match k with
      | .fs => some (tryOpen s c timeout)
      | .ram => some ([], setPC s c (.checked (!s.file)))      -- ram_exists, ram_store.c 382
  | .step c =>
    match s.pc c with
    | .idle => none
    | .trying n => some (tryOpen s c n)
    | .probing => some ([.told c false], setPC { s with file := false } c .idle)  -- remove, fs_store.c 379
    | .checked ret =>                                          -- ram_touch, ram_store.c 385
      some ([if ret then .got c else .refused c], setPC { s with file := true } c .idle)
  | .isLocked c =>
    if s.pc c ≠ .idle then none
    else match k with
      | .fs => if s.file = false then some ([], setPC { s with file := true } c .probing) else some ([.told c true], s)
      | .ram => some ([.told c s.file], s)
  | .release c => if s.pc c ≠ .idle then none else some ([.gave c], { s with file := false })
  | .close c =>                                                -- fs_close_lock_i 409–414, ram_close_lock_i 412–416
    if s.pc c ≠ .idle then none
    else match k with
      | .fs => some ([.gave c], { s with file := false })
      | .ram => some ([.gave c], s)

/-- A run: the observations and the state reached. -/
def run (k : Kind) (s : State) : List Ev → Option (List LObs × State)
  | [] => some ([], s)
  | e :: es => (step k s e).bind fun r => (run k r.2 es).map fun r' => (r.1 ++ r'.1, r'.2)

end Ferret.Lock
