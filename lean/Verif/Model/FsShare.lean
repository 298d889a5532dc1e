import Verif.Model.FsDir

/-!
Model of how stores on disk are shared: open_fs_store, fs_store.c 479–501, store_deref, store.c 36–45, and fs_close_i,
fs_store.c 423–428, with the threads that call them.

The steps of different threads interleave in any way. What a thread does while it holds `stores_mutex` or `mutex_i` is cut
where another thread may see it: at each read and each write of `ref_cnt`, which is not guarded by one mutex (open_fs_store
holds `stores_mutex` and `mutex`, store_deref `mutex_i`). `mutex`, which is locked by nobody else meanwhile, is left out.
A step of a thread that has to wait for a mutex is not possible. Stores live in a heap, `none` once freed; using a freed one is
undefined. That fs_destroy destroys `mutex_i` while it is locked is not looked at, and neither is that it clears locks,
which is FsDir.destroy.
-/

namespace Ferret.FsShare
open Ferret.Spec (Name)

structure Store where
  path : Name
  refCnt : Int

/-- Where a thread is. -/
inductive PC where
  | idle
  /-- open_fs_store before it reads `ref_cnt`, fs_store.c 492 -/
  | incRead (s : Nat)
  /-- before it writes -/
  | incWrite (s : Nat) (v : Int)
  /-- store_deref before it reads `ref_cnt`, store.c 39 -/
  | decRead (s : Nat)
  /-- before it writes -/
  | decWrite (s : Nat) (v : Int)
  /-- in fs_close_i before `stores_mutex` is locked, fs_store.c 425 -/
  | closing (s : Nat)
  deriving DecidableEq

structure State where
  heap : List (Option Store)
  /-- the hash `stores` -/
  table : List (Name × Nat)
  /-- who holds `stores_mutex` -/
  big : Option Nat
  /-- who holds `mutex_i` of a store -/
  small : Nat → Option Nat
  pc : Nat → PC

def init : State := ⟨[], [], none, fun _ => none, fun _ => .idle⟩

inductive Ev where
  | openStore (t : Nat) (p : Name)
  | closeStore (t : Nat) (s : Nat)
  | step (t : Nat)

def Ev.thread : Ev → Nat
  | .openStore t _ | .closeStore t _ | .step t => t

/-- What is seen: a thread got a store, or is done with giving it back. -/
inductive Obs where
  | got (t s : Nat)
  | gave (t s : Nat)
  deriving DecidableEq

def setPC (st : State) (t : Nat) (p : PC) : State := { st with pc := fun u => if u = t then p else st.pc u }

def setSmall (st : State) (s : Nat) (o : Option Nat) : State := { st with small := fun u => if u = s then o else st.small u }

/-- `store->…`. -/
def getStore (st : State) (s : Nat) : Res Store :=
  match st.heap[s]? with
  | some (some x) => .ok x
  | _ => .ub

/-- The next step of a thread that is in a call; `.raise .lock` when it has to wait, `.raise .state` when it is in none. -/
def stepPC (st : State) (t : Nat) : PC → Res (List Obs × State)
  | .idle => .raise .state
  | .incRead s => getStore st s >>= fun x => .ok ([], setPC st t (.incWrite s x.refCnt))
  | .incWrite s v =>
    getStore st s >>= fun x =>
      .ok ([.got t s], { setPC st t .idle with heap := st.heap.set s (some { x with refCnt := v + 1 }), big := none })
  | .decRead s => getStore st s >>= fun x => .ok ([], setPC st t (.decWrite s x.refCnt))
  | .decWrite s v =>
    getStore st s >>= fun x =>
      let st' := { st with heap := st.heap.set s (some { x with refCnt := v - 1 }) }
      if v - 1 ≤ 0 then .ok ([], setPC st' t (.closing s))
      else .ok ([.gave t s], setSmall (setPC st' t .idle) s none)
  | .closing s =>                                              -- h_del, fs_store.c 426, frees the store that is found
    if st.big ≠ none then .raise .lock
    else getStore st s >>= fun x =>
      match st.table.find? (fun e => e.1 == x.path) with
      | some e => .ok ([.gave t s], { setPC st t .idle with heap := st.heap.set e.2 none, table := st.table.filter (fun e => !(e.1 == x.path)) })
      | none => .ok ([.gave t s], setPC st t .idle)

/-- A step of the system. -/
def step (st : State) : Ev → Res (List Obs × State)
  | .openStore t p =>                                          -- fs_store.c 488–498
    if st.pc t ≠ .idle then .raise .state
    else if st.big ≠ none then .raise .lock
    else match st.table.find? (fun e => e.1 == p) with
      | some e => .ok ([], { setPC st t (.incRead e.2) with big := some t })
      | none => .ok ([.got t st.heap.length], { st with heap := st.heap ++ [some ⟨p, 1⟩], table := (p, st.heap.length) :: st.table })
  | .closeStore t s =>                                         -- store.c 38
    if st.pc t ≠ .idle then .raise .state
    else getStore st s >>= fun _ =>
      if st.small s ≠ none then .raise .lock
      else .ok ([], setPC (setSmall st s (some t)) t (.decRead s))
  | .step t => stepPC st t (st.pc t)

/-- A run. -/
def run (st : State) : List Ev → Res (List Obs × State)
  | [] => .ok ([], st)
  | e :: es => step st e >>= fun r => run r.2 es >>= fun r' => .ok (r.1 ++ r'.1, r'.2)

/-- The steps of a thread until it is out of its call; no call has more than `n = 3`. -/
def finish (t : Nat) : Nat → State → Res (List Obs × State)
  | 0, st => .ok ([], st)
  | n + 1, st => if st.pc t = .idle then .ok ([], st) else step st (.step t) >>= fun r => finish t n r.2 >>= fun r' => .ok (r.1 ++ r'.1, r'.2)

/-- A call that no other thread interrupts. -/
def call (st : State) (e : Ev) : Res (List Obs × State) :=
  step st e >>= fun r => finish e.thread 3 r.2 >>= fun r' => .ok (r.1 ++ r'.1, r'.2)

/-- Calls, one after the other. -/
def calls (st : State) : List Ev → Res (List Obs × State)
  | [] => .ok ([], st)
  | e :: es => call st e >>= fun r => calls r.2 es >>= fun r' => .ok (r.1 ++ r'.1, r'.2)

end Ferret.FsShare
