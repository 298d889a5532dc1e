import Verif.Model.TermDict

/-!
Lookups of terms through one reader by several threads (c/src/index.c 2084–2113, 2142–2148,
2268–2295, 2633–2682). The field of the reader and the tables of index terms are shared; each thread
has its own enumerator, with a stream of its own (threads reading one file descriptor are not
modelled, nor is the array the enumerators are kept in for closing). A step is a piece of a lookup
that reads or writes what is shared at most once; memory is sequentially consistent. Filling a table is one
step, after the one that allocates it.
-/

namespace Ferret.Dict
open Ferret Ferret.Expand

/-- Where a thread is in a lookup of term `t` in field `f`. -/
inductive PC where
  | idle
  /-- tir_enum, index.c 2669 -/
  | enum (f : Int) (t : Term)
  /-- index.c 2672–2673 -/
  | compare (f : Int) (t : Term)
  /-- index.c 2674 -/
  | write (f : Int) (t : Term)
  /-- ste_scan_to up to the test of SFI_ENSURE_INDEX_IS_READ, index.c 2270–2274, 2143 -/
  | check (f : Int) (t : Term)
  /-- index.c 2144, 2087–2098 -/
  | lock (f : Int) (t : Term)
  /-- index.c 2100–2111, 2146 -/
  | fill (f : Int) (t : Term)
  /-- the rest of ste_scan_to, index.c 2275–2290, and 2677–2681 -/
  | scan (f : Int) (t : Term)
  deriving DecidableEq

/-- A table of index terms: not there, allocated, or read. -/
inductive Tab where
  | none | part | full
  deriving DecidableEq

/-- The reader and its threads. -/
structure Sys where
  field : Int
  tab : Int → Tab
  mutex : Option Nat
  te : Nat → Option STE
  pc : Nat → PC

def upd {α : Type} (g : Nat → α) (i : Nat) (x : α) : Nat → α := fun j => if j = i then x else g j
def updTab (g : Int → Tab) (f : Int) (x : Tab) : Int → Tab := fun j => if j = f then x else g j

/-- tir_open, index.c 2618–2631. -/
def sysOpen : Sys := ⟨-1, fun _ => .none, none, fun _ => none, fun _ => .idle⟩

inductive Sched where
  /-- thread `i` asks for a term -/
  | call (i : Nat) (f : Int) (t : Term)
  /-- thread `i` takes a step -/
  | go (i : Nat)
  deriving DecidableEq

/-- The answer to a lookup: thread, field, term, and what is found. -/
abbrev Answer := Nat × Int × Term × Option TI

/-- A step of thread `i`. A thread without an enumerator past the first step cannot be. Waiting for
the mutex is a step that does nothing. Using a table that is not read is undefined. -/
def goStep (sfi : SFI) (tis : List Byte) (s : Sys) (i : Nat) : Res (Sys × List Answer) :=
  match s.pc i with
  | .idle => .ok (s, [])
  | .enum f t =>
    .ok ({ s with te := upd s.te i (some (match s.te i with
      | some e => e
      | none => steSetField sfi (steNew tis) s.field)), pc := upd s.pc i (.compare f t) }, [])
  | .compare f t =>
    Res.ofOption (s.te i) >>= fun e =>
    if f ≠ s.field then .ok ({ s with te := upd s.te i (some (steSetField sfi e f)), pc := upd s.pc i (.write f t) }, [])
    else .ok ({ s with pc := upd s.pc i (.check f t) }, [])
  | .write f t => .ok ({ s with field := f, pc := upd s.pc i (.check f t) }, [])
  | .check f t =>
    Res.ofOption (s.te i) >>= fun e =>
    match sfi.dict e.field with
    | none => .ok ({ s with pc := upd s.pc i .idle }, [(i, f, t, none)])
    | some sti =>
      if sti.size > 0 then
        .ok ({ s with pc := upd s.pc i (if s.tab e.field = .none then .lock f t else .scan f t) }, [])
      else .ok ({ s with pc := upd s.pc i .idle }, [(i, f, t, none)])
  | .lock f t =>
    match s.mutex with
    | some _ => .ok (s, [])
    | none =>
      Res.ofOption (s.te i) >>= fun e =>
      if s.tab e.field = .none then
        .ok ({ s with mutex := some i, tab := updTab s.tab e.field .part, pc := upd s.pc i (.fill f t) }, [])
      else .ok ({ s with pc := upd s.pc i (.scan f t) }, [])
  | .fill f t =>
    Res.ofOption (s.te i) >>= fun e =>
    .ok ({ s with mutex := none, tab := updTab s.tab e.field .full, pc := upd s.pc i (.scan f t) }, [])
  | .scan f t =>
    Res.ofOption (s.te i) >>= fun e =>
    if s.tab e.field = .full then
      scanTo sfi e t >>= fun x =>
      .ok ({ s with te := upd s.te i (some x.1), pc := upd s.pc i .idle }, [(i, f, t, match x.2 with
        | some m => if strcmp m t = 0 then some x.1.ti else none
        | none => none)])
    else .ub

/-- A thread asks only when it has its last answer. -/
def schedStep (sfi : SFI) (tis : List Byte) (s : Sys) : Sched → Res (Sys × List Answer)
  | .call i f t => match s.pc i with
    | .idle => .ok ({ s with pc := upd s.pc i (.enum f t) }, [])
    | _ => .ok (s, [])
  | .go i => goStep sfi tis s i

def schedRun (sfi : SFI) (tis : List Byte) : Sys → List Sched → Res (Sys × List Answer)
  | s, [] => .ok (s, [])
  | s, x :: xs => schedStep sfi tis s x >>= fun r => schedRun sfi tis r.1 xs >>= fun r' => .ok (r'.1, r.2 ++ r'.2)

/-- A lookup with no other thread in between: the steps it takes at most. -/
def whole (i : Nat) (f : Int) (t : Term) : List Sched := .call i f t :: List.replicate 7 (.go i)

end Ferret.Dict
