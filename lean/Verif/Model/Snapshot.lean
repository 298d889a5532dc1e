import Verif.Model.Deleter

/-!
What writers and readers do to the files of an index, call by call of the store (c/src/index.c
1129–1167, 4225–4238, 4397–4436, 4594–4666, 5335–5398, 5878–5882, 6071–6118, 6167–6173, 6540–6709;
c/src/compound_io.c 351). A step is one call of the store with the change of the segment infos that
determines the name used. The processes are those that make commits under the write lock (one at a
time, C51), and any number of readers. The steps may come in any order a program could make and in
many it could not: which files a writer opens is restricted to the names the code forms there, and

* data files and compound files are only opened for a segment made since the last commit by the same
  session (every sis_write is preceded by the flush, the merge or the copy being complete: 6246–6267,
  6316–6327, 6365–6392, 6797–6806);
* streams are closed when a commit is complete;
* counters and generations do not reach the end of their types.

What a commit holds is taken to be what a reader of the segments file gets (C16, C17). The bytes
written are arbitrary. Removal of a name may happen to any name at any time.
-/

namespace Ferret.Snap
open Ferret Ferret.Spec Ferret.Names Ferret.Sis Ferret.Dlr

/-- The holder of the write lock: its segment infos, and the segments it made since the last
commit. -/
structure Session where
  sis : SIS
  fresh : List Name
  deriving DecidableEq

structure World where
  dir : DState
  /-- the segment infos of the last commit -/
  disk : SIS
  mem : Option Session

inductive Ev where
  /-- iw_open 6496–6502 or ir_acquire_write_lock 3882–3919: the lock is taken and the segment infos
  are those of the last commit -/
  | begin
  /-- the lock is given up, or the process ends: its streams are gone -/
  | stop
  /-- index_create 6167–6173, up to the segments file -/
  | create (fis : Fis.FIS) (now : Nat)
  /-- sis_new_segment 1023–1026 -/
  | newSeg (docCnt : Int)
  /-- fw_open 1817–1820, tw_new 2715, 2747, dw_flush 5395–5398, sm_merge_fields 5878–5882,
  sm_merge_terms 6071–6074, iw_cp_fields 6540–6555, iw_cp_terms 6627–6648, cw_close 351: an output
  "name.ext" of the i-th segment -/
  | out (i : Nat) (ext : Name)
  /-- sr_commit_i 4412–4416 with bv_write 4361 -/
  | delOut (i : Nat)
  /-- sr_commit_i 4408–4411 -/
  | undelete (i : Nat)
  /-- norm_rewrite 4225–4238, dw_write_norms 5335–5344, sm_merge_norms 6116–6118, iw_cp_norms
  6707–6709 -/
  | normOut (i field : Nat)
  /-- si->use_compound_file set, 6264, 6324 -/
  | compound (i : Nat)
  /-- sis_del_from_to 1060–1070 -/
  | drop (i j : Nat)
  /-- fields are added, or the count of documents of a segment changes -/
  | setInfo (fis : Fis.FIS) (i : Nat) (docCnt : Int)
  /-- sis_write 1138 -/
  | segOut (gen : Nat)
  /-- sis_write 1153 -/
  | genOut
  | write (h : Nat) (bs : List Byte)
  | closeOut (h : Nat)
  /-- sis_write 1135–1149: the segments file is complete -/
  | commit
  /-- deleter_delete_file 3708–3719 and whatever else removes files -/
  | remove (n : Name)
  /-- locks: store->touch, store->clear_locks -/
  | lockTouch (n : Name)
  | clearLocks
  /-- store->open_input, and what is done with the stream -/
  | openIn (n : Name)
  | read (h pos len : Nat)
  | closeIn (h : Nat)
  deriving DecidableEq

/-- frq prx fdx fdt tfx tix tis cfs, and del (iw_cp_fields 6550–6555). -/
def segExts : List Name :=
  [[102, 114, 113], [112, 114, 120], [102, 100, 120], [102, 100, 116], [116, 102, 120], [116, 105, 120], [116, 105, 115],
   [99, 102, 115], [100, 101, 108]]

/-- A name the code forms. -/
def okName : Res (Option Name) → Option Name
  | .ok (some n) => some n
  | _ => none

/-- The calls that close the streams a process leaves open. -/
def closeAll (outs : List (Option (Nat × Nat))) : List DOp :=
  (outs.zipIdx.filter fun p => p.1.isSome).map fun p => .closeOut p.2

/-- The segment infos with the i-th changed. -/
def setSeg (s : Session) (i : Nat) (si : SI) : Session := { s with sis := { s.sis with segs := s.sis.segs.set i si } }

/-- The calls of the store a step makes, and the segment infos on the disk and in the session
afterwards; `none` when it is not a step. -/
def calls (w : World) : Ev → Option (List DOp × SIS × Option Session)
  | .begin => match w.mem with
    | none => some ([], w.disk, some ⟨w.disk, []⟩)
    | some _ => none
  | .stop => some (closeAll w.dir.outs, w.disk, none)
  | .create fis now => some ([.clearAll], sisNew fis now, w.mem)
  | .newSeg d => w.mem.bind fun s =>
    if s.sis.counter + 1 < 2 ^ 64 then
      match newSegment s.sis.counter, Sis.newSeg s.sis d with
      | .ok n, .ok sis => some ([], w.disk, some ⟨sis, n :: s.fresh⟩)
      | _, _ => none
    else none
  | .out i e => w.mem.bind fun s => s.sis.segs[i]?.bind fun si =>
    if s.fresh.contains si.name = true ∧ segExts.contains e = true then some ([.openOut (si.name ++ 46 :: e)], w.disk, some s) else none
  | .delOut i => w.mem.bind fun s => s.sis.segs[i]?.bind fun si =>
    if si.delGen + 1 < 2 ^ 31 then
      (okName (fnForGeneration si.name (some [100, 101, 108]) (si.delGen + 1))).map fun n =>
        ([.openOut n], w.disk, some (setSeg s i { si with delGen := si.delGen + 1 }))
    else none
  | .undelete i => w.mem.bind fun s => s.sis.segs[i]?.map fun si => ([], w.disk, some (setSeg s i { si with delGen := -1 }))
  | .normOut i f => w.mem.bind fun s => s.sis.segs[i]?.bind fun si =>
    if f < 2 ^ 31 ∧ (si.normGens[f]?).getD (-1) + 1 < 2 ^ 31 then
      (okName (normFileName (advanceNormGen si f) f)).map fun n => ([.openOut n], w.disk, some (setSeg s i (advanceNormGen si f)))
    else none
  | .compound i => w.mem.bind fun s => s.sis.segs[i]?.map fun si => ([], w.disk, some (setSeg s i { si with compound := true }))
  | .drop i j => w.mem.bind fun s => match delFromTo s.sis i j with
    | .ok sis => some ([], w.disk, some { s with sis := sis })
    | _ => none
  | .setInfo fis i d => w.mem.bind fun s =>
    some ([], w.disk, some { s with sis := { s.sis with fis := fis, segs := s.sis.segs.modify i fun si => { si with docCnt := d } } })
  | .segOut g => match segfn g with
    | .ok n => some ([.openOut n], w.disk, w.mem)
    | _ => none
  | .genOut => some ([.openOut segmentsFile], w.disk, w.mem)
  | .write h bs => some ([.write h bs], w.disk, w.mem)
  | .closeOut h => some ([.closeOut h], w.disk, w.mem)
  | .commit => w.mem.bind fun s =>
    if w.dir.outs.all (·.isNone) = true then some ([], committed s.sis, some ⟨committed s.sis, []⟩) else none
  | .remove n => some ([.remove n], w.disk, w.mem)
  | .lockTouch n => if isLockName n = true then some ([.touch n], w.disk, w.mem) else none
  | .clearLocks => some ([.clearLocks], w.disk, w.mem)
  | .openIn n => some ([.openIn n], w.disk, w.mem)
  | .read h pos len => some ([.read h pos len], w.disk, w.mem)
  | .closeIn h => some ([.closeIn h], w.disk, w.mem)

/-- One step: the calls, their results, and the state after. -/
def step (w : World) (e : Ev) : Option (List DOp × List DObs × World) :=
  (calls w e).bind fun c => (drun w.dir c.1).map fun r => (c.1, r.1, ⟨r.2, c.2.1, c.2.2⟩)

def run (w : World) : List Ev → Option (List DOp × List DObs × World)
  | [] => some ([], [], w)
  | e :: es => (step w e).bind fun r => (run r.2.2 es).map fun r' => (r.1 ++ r'.1, r.2.1 ++ r'.2.1, r'.2.2)

/-- An empty directory with an empty index. -/
def start (fis : Fis.FIS) (now : Nat) : World := ⟨emptyDir, sisNew fis now, none⟩

/-- The norms opened from the store by sr_open_norms, index.c 4594–4609, beginning with the last
field; those of generation 0 of a compound segment are in the compound file. -/
def normStreams (si : SI) : Nat → Res (List Name)
  | 0 => .ok []
  | i + 1 => normFileName si i >>= fun n => normStreams si i >>= fun r =>
    match n with
    | some n => .ok (if si.compound = true ∧ si.normGens[i]? = some 0 then r else n :: r)
    | none => .ok r

/-- The files of a segment a reader opens and keeps open (or reads to the end, tfx), sr_setup_i
4644–4668: the compound file, or fdt fdx (1525–1528), tfx tix (2159–2179), tis (2625), frq and
prx; and the norms. -/
def segStreams (si : SI) : Res (List Name) :=
  normStreams si si.normGens.length >>= fun ns =>
  .ok ((if si.compound then [si.name ++ [46, 99, 102, 115]]
    else [[102, 100, 116], [102, 100, 120], [116, 102, 120], [116, 105, 120], [116, 105, 115], [102, 114, 113], [112, 114, 120]].map
      fun e => si.name ++ 46 :: e) ++ ns)

/-- The deletions read when the segment is opened, sr_setup_i 4658–4661. -/
def segDeletions (si : SI) : Option Name :=
  if si.delGen < 0 then none else okName (fnForGeneration si.name (some [100, 101, 108]) si.delGen)

end Ferret.Snap
