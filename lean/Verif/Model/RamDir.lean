import Verif.Model.Hash
import Verif.Spec.Dir

/-!
Model of the in-memory directory, c/src/ram_store.c: a hash table from names to reference-counted
files, and streams that hold references.

The files live in a heap addressed by position, `none` once freed; using a freed file is undefined.
The bytes of a file are one list: that its 1024-byte buffers and the buffering of the streams amount
to that is C09. A stream that has been closed is freed, using it is undefined. Names are compared by
their bytes; the keys of the table are taken to stay what they were when stored (ram_touch stores the
caller's pointer, ram_store.c 43: see DESIGN.md).
-/

namespace Ferret.RamDir
open Ferret.Hash (Fns Tbl)
open Ferret.Spec (Name DOp DObs isLockName lockPrefix)

/-- str_hash, hash.c 24–34. -/
def strHash (n : Name) : UInt64 := n.foldl (fun h b => 37 * h + b.toUInt64) 0

/-- h_new_str: str_hash and str_eq, hash.c 46–49 (names contain no zero byte). Two names are taken
to be different objects, as they are for all callers in ram_store.c but one: in ram_rename the status
h_set returns is not used. -/
def strFns : Fns Name := ⟨strHash, fun a b => a == b, fun _ _ => false, false⟩

/-- `RAMFile`, c/include/store.h. -/
structure RF where
  name : Name
  data : List Byte
  ref : Nat

structure Dir where
  heap : List (Option RF)
  ht : Tbl Name Nat
  outs : List (Option (Nat × Nat))
  ins : List (Option Nat)

/-- open_ram_store, ram_store.c 419–440. -/
def new : Dir := ⟨[], Hash.new, [], []⟩

/-- `rf->…`. -/
def getRF (heap : List (Option RF)) (i : Nat) : Res RF :=
  match heap[i]? with
  | some (some rf) => .ok rf
  | _ => .ub

/-- `DEREF(rf)`; a count below zero is undefined here. -/
def deref (heap : List (Option RF)) (i : Nat) : Res (List (Option RF)) :=
  getRF heap i >>= fun rf => if rf.ref = 0 then .ub else .ok (heap.set i (some { rf with ref := rf.ref - 1 }))

/-- `REF(rf)`. -/
def addRef (heap : List (Option RF)) (i : Nat) : Res (List (Option RF)) :=
  getRF heap i >>= fun rf => .ok (heap.set i (some { rf with ref := rf.ref + 1 }))

/-- rf_close, ram_store.c 25–38. -/
def rfClose (heap : List (Option RF)) (i : Nat) : Res (List (Option RF)) :=
  getRF heap i >>= fun rf => .ok (if rf.ref > 0 then heap else heap.set i none)

/-- `rf_new` and `h_set(ht, name, rf)`, ram_store.c 43 and 284–285; rf_new is ram_store.c 5–15. -/
def create (d : Dir) (n : Name) : Res Dir :=
  Hash.set strFns d.ht n d.heap.length >>= fun r =>
  .ok { d with heap := d.heap ++ [some ⟨n, [], 1⟩], ht := r.2 }

/-- ram_touch, ram_store.c 40–45. -/
def touch (d : Dir) (n : Name) : Res Dir :=
  Hash.get strFns d.ht n >>= fun r =>
  match r.1 with
  | none => create { d with ht := r.2 } n
  | some _ => .ok { d with ht := r.2 }

/-- ram_exists, ram_store.c 47–55. -/
def exist (d : Dir) (n : Name) : Res (Bool × Dir) :=
  Hash.get strFns d.ht n >>= fun r => .ok (r.1.isSome, { d with ht := r.2 })

/-- ram_remove, ram_store.c 57–68. -/
def remove (d : Dir) (n : Name) : Res (Bool × Dir) :=
  Hash.rem strFns d.ht n >>= fun r =>
  match r.1 with
  | some i =>
    deref d.heap i >>= fun heap => rfClose heap i >>= fun heap => .ok (true, { d with heap := heap, ht := r.2.2 })
  | none => .ok (false, { d with ht := r.2.2 })

/-- The value h_set frees, hash.c 368–381 with `free_value_i` = rf_close: the old one, if the key
was there and had another value. -/
def freeOld (heap : List (Option RF)) (st : Hash.Status) (old : Option Nat) (new : Nat) : Res (List (Option RF)) :=
  match st, old with
  | .absent, _ => .ok heap
  | _, some t => if t = new then .ok heap else rfClose heap t
  | _, none => .ub

/-- ram_rename, ram_store.c 70–91; `false` when IO_ERROR is raised. -/
def rename (d : Dir) (a b : Name) : Res (Bool × Dir) :=
  Hash.rem strFns d.ht a >>= fun r =>
  match r.1 with
  | none => .ok (false, { d with ht := r.2.2 })
  | some i =>
    getRF d.heap i >>= fun rf =>
    Hash.get strFns r.2.2 b >>= fun g =>
    (match g.1 with
     | some t => deref (d.heap.set i (some { rf with name := b })) t
     | none => .ok (d.heap.set i (some { rf with name := b }))) >>= fun heap =>
    Hash.set strFns g.2 b i >>= fun s =>
    freeOld heap s.1 g.1 i >>= fun heap => .ok (true, { d with heap := heap, ht := s.2 })

/-- ram_length, ram_store.c 170–179. -/
def length (d : Dir) (n : Name) : Res (Nat × Dir) :=
  Hash.get strFns d.ht n >>= fun r =>
  match r.1 with
  | none => .ok (0, { d with ht := r.2 })
  | some i => getRF d.heap i >>= fun rf => .ok (rf.data.length, { d with ht := r.2 })

/-- ram_new_output, ram_store.c 278–292: the file is not truncated. -/
def openOut (d : Dir) (n : Name) : Res (Nat × Dir) :=
  Hash.get strFns d.ht n >>= fun r =>
  (match r.1 with
   | none => create { d with ht := r.2 } n >>= fun d' => .ok (d.heap.length, d')
   | some i => .ok (i, { d with ht := r.2 })) >>= fun x =>
  addRef x.2.heap x.1 >>= fun heap =>
  .ok (d.outs.length, { x.2 with heap := heap, outs := x.2.outs ++ [some (x.1, 0)] })

/-- Writing and flushing, ramo_flush_i, ram_store.c 186–218. -/
def write (d : Dir) (h : Nat) (bs : List Byte) : Res Dir :=
  match d.outs[h]? with
  | some (some (i, p)) =>
    getRF d.heap i >>= fun rf =>
    .ok { d with heap := d.heap.set i (some { rf with data := writeAt rf.data p bs }), outs := d.outs.set h (some (i, p + bs.length)) }
  | _ => .ub

/-- os_close with ramo_close_i, ram_store.c 231–236. -/
def closeOut (d : Dir) (h : Nat) : Res Dir :=
  match d.outs[h]? with
  | some (some (i, _)) =>
    deref d.heap i >>= fun heap => rfClose heap i >>= fun heap => .ok { d with heap := heap, outs := d.outs.set h none }
  | _ => .ub

/-- ram_open_input, ram_store.c 349–375; `none` when FILE_NOT_FOUND_ERROR is raised. -/
def openIn (d : Dir) (n : Name) : Res (Option Nat × Dir) :=
  Hash.get strFns d.ht n >>= fun r =>
  match r.1 with
  | none => .ok (none, { d with ht := r.2 })
  | some i => addRef d.heap i >>= fun heap => .ok (some d.ins.length, { d with ht := r.2, heap := heap, ins := d.ins ++ [some i] })

/-- Reading `len` bytes at `pos`, rami_read_i, ram_store.c 294–323; beyond the end of the file it is
undefined (C09). -/
def read (d : Dir) (h pos len : Nat) : Res (List Byte) :=
  match d.ins[h]? with
  | some (some i) => getRF d.heap i >>= fun rf => if pos + len ≤ rf.data.length then .ok (slice rf.data pos len) else .ub
  | _ => .ub

/-- is_close with rami_close_i, ram_store.c 335–340. -/
def closeIn (d : Dir) (h : Nat) : Res Dir :=
  match d.ins[h]? with
  | some (some i) =>
    deref d.heap i >>= fun heap => rfClose heap i >>= fun heap => .ok { d with heap := heap, ins := d.ins.set h none }
  | _ => .ub

/-- The loop of ram_clear 131–142, ram_clear_locks 144–155 and ram_clear_all 157–168, ram_store.c,
from slot `i`; `del` tells which names to delete. h_del frees the value with rf_close. -/
def clearLoop (del : Name → Bool) : (n i : Nat) → Dir → Res Dir
  | 0, _, d => .ok d
  | n + 1, i, d =>
    match d.ht.table[i]? with
    | none => .ub
    | some e => match e.value with
      | none => clearLoop del n (i + 1) d
      | some f =>
        getRF d.heap f >>= fun rf =>
        if del rf.name then
          deref d.heap f >>= fun heap =>
          Hash.rem strFns d.ht rf.name >>= fun r =>
          (match r.1 with
           | some g => rfClose heap g
           | none => .ok heap) >>= fun heap =>
          clearLoop del n (i + 1) { d with heap := heap, ht := r.2.2 }
        else clearLoop del n (i + 1) d

def clearWith (del : Name → Bool) (d : Dir) : Res Dir := clearLoop del d.ht.table.length 0 d

/-- ram_each, ram_store.c 98–112, from slot `i`: the names it passes to the function. -/
def eachLoop (d : Dir) : (n i : Nat) → Res (List Name)
  | 0, _ => .ok []
  | n + 1, i =>
    match d.ht.table[i]? with
    | none => .ub
    | some e => match e.value with
      | none => eachLoop d n (i + 1)
      | some f =>
        getRF d.heap f >>= fun rf =>
        if rf.name.take lockPrefix.length = lockPrefix then eachLoop d n (i + 1)
        else eachLoop d n (i + 1) >>= fun l => .ok (rf.name :: l)

def each (d : Dir) : Res (List Name) := eachLoop d d.ht.table.length 0

/-- One call of the interface. -/
def doOp (d : Dir) : DOp → Res (DObs × Dir)
  | .touch n => touch d n >>= fun d => .ok (.unit, d)
  | .exist n => exist d n >>= fun r => .ok (.bool r.1, r.2)
  | .remove n => remove d n >>= fun r => .ok (.bool r.1, r.2)
  | .rename a b => rename d a b >>= fun r => .ok (if r.1 then .unit else .error, r.2)
  | .count => .ok (.num d.ht.size, d)
  | .length n => length d n >>= fun r => .ok (.num r.1, r.2)
  | .openOut n => openOut d n >>= fun r => .ok (.num r.1, r.2)
  | .write h bs => write d h bs >>= fun d => .ok (.unit, d)
  | .closeOut h => closeOut d h >>= fun d => .ok (.unit, d)
  | .openIn n => openIn d n >>= fun r => match r.1 with
    | some h => .ok (.num h, r.2)
    | none => .ok (.error, r.2)
  | .read h pos len => read d h pos len >>= fun l => .ok (.bytes l, d)
  | .closeIn h => closeIn d h >>= fun d => .ok (.unit, d)
  | .clear => clearWith (fun n => !isLockName n) d >>= fun d => .ok (.unit, d)
  | .clearLocks => clearWith isLockName d >>= fun d => .ok (.unit, d)
  | .clearAll => clearWith (fun _ => true) d >>= fun d => .ok (.unit, d)

/-- A sequence of calls. -/
def doOps (d : Dir) : List DOp → Res (List DObs × Dir)
  | [] => .ok ([], d)
  | op :: ops => doOp d op >>= fun r => doOps r.2 ops >>= fun r' => .ok (r.1 :: r'.1, r'.2)

end Ferret.RamDir
