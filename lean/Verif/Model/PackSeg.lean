import Verif.Model.Compound
import Verif.Model.Deleter

/-!
Putting a new segment into a compound file (iw_create_compound_file, iw_commit_compound_file and
their caller iw_flush_ram_segment, index.c 6197–6239, 6316–6329; iw_merge_segments 6261–6268 does
the same) and opening the segment (sr_setup_i, sr_open_norms, index.c 4594–4683). The store is one
of the operating system (a store in memory behaves the same: C90); the deleter's pending files are a
list without repetitions (C06); a pending file that cannot be removed stays pending and is not
modelled. What else sr_setup_i sets up is modelled elsewhere (C18, C20, C21, C93).
-/

namespace Ferret.PackSeg
open Ferret Ferret.Spec Ferret.Store Ferret.Names Ferret.Sis Ferret.Dlr Ferret.Compound Ferret.Fis

/-- COMPOUND_EXTENSIONS, index.c 55–57: frq prx fdx fdt tfx tix tis. -/
def packExts : List Name :=
  [[102, 114, 113], [112, 114, 120], [102, 100, 120], [102, 100, 116], [116, 102, 120], [116, 105, 120], [116, 105, 115]]

/-- The segment's name, a dot and the extension, in a buffer of SEGMENT_NAME_MAX_LENGTH bytes
(index.c 6210–6217, 1521–1527, 2159, 2624, 4663). -/
def extName (si : SI) (e : Name) : Res Name := sprintf (si.name ++ 46 :: e)

/-- deleter_queue_file, index.c 3703–3706: added to a set of names. -/
def queueFile (pending : List Name) (n : Name) : List Name := if pending.contains n then pending else pending ++ [n]

/-- MOVE_TO_COMPOUND_DIR, index.c 6197–6199: the pending files and the files added. -/
def move (st : List Name × List Name) (n : Name) : Res (List Name × List Name) :=
  cwAdd st.2 n >>= fun ids => .ok (queueFile st.1 n, ids)

/-- The first loop, index.c 6215–6219. -/
def moveExts (si : SI) : List Name → List Name × List Name → Res (List Name × List Name)
  | [], st => .ok st
  | e :: es, st => extName si e >>= fun n => move st n >>= fun st => moveExts si es st

/-- The second loop, index.c 6222–6227, from the last field to the first. -/
def moveNorms (fields : List FI) (si : SI) : Nat → List Name × List Name → Res (List Name × List Name)
  | 0, st => .ok st
  | i + 1, st =>
    Res.ofOption fields[i]? >>= fun fi =>
    if hasNorms fi then
      normFileName si i >>= fun o =>
      match o with
      | some n => move st n >>= fun st => moveNorms fields si i st
      | none => moveNorms fields si i st
    else moveNorms fields si i st

/-- What a step of the writer leaves: whether it ended without an exception, the files, the pending
files and the segment. -/
structure Left where
  done : Bool
  disk : Disk
  pending : List Name
  si : SI

/-- iw_commit_compound_file with iw_create_compound_file, index.c 6201–6239, and the line after it
(6323–6324, 6263–6264). `fails` is that the store raises an exception while the compound file is
written (a full disk): no member has been changed, and what is in the compound file then is not
modelled. -/
def packSegment (d : Disk) (pending : List Name) (fis : FIS) (si : SI) (fails : Bool) : Res Left :=
  extName si [99, 102, 115] >>= fun cfs =>
  moveExts si packExts (pending, []) >>= fun st =>
  moveNorms fis.fields si fis.fields.length st >>= fun st =>
  if fails then .ok ⟨false, d, st.1, si⟩
  else cwClose d cfs st.2 >>= fun d => .ok ⟨true, d, st.1, { si with compound := true }⟩

/-- deleter_commit_pending_deletions with deleter_delete_file, index.c 3708–3728. -/
def commitPending (d : Disk) (pending : List Name) : Disk := d.filter fun p => !pending.contains p.1

/-- The norms of the new segment: si_advance_norm_gen for each field whose norms are written, in the
order they are written (dw_write_norms, index.c 5335–5344; sm_merge_norms 6112–6117). -/
def newSegmentInfo (name : Name) (docCnt : Int) (fields : List Nat) : SI := fields.foldl advanceNormGen (siNew name docCnt)

/-- Where a reader finds the files: the store, or the compound file opened first (sr_setup_i,
index.c 4645–4649). -/
def source (d : Disk) (si : SI) : Res (Name → Res InS) :=
  if si.compound then extName si [99, 102, 115] >>= fun n => cmpdOpen d n >>= fun c => .ok (cmpdOpenInput c)
  else .ok fun n => Sis.openInput d n >>= fun c => .ok (isOpen (.fs c))

/-- Files opened one after the other. -/
def openExts (src : Name → Res InS) (si : SI) : List Name → Res (List (Name × InS))
  | [] => .ok []
  | e :: es => extName si e >>= fun n => src n >>= fun s => openExts src si es >>= fun r => .ok ((n, s) :: r)

/-- sr_open_norms, index.c 4594–4609, from the last field to the first: norms of generation 0 from
the compound file, later ones from the store. -/
def openNorms (d : Disk) (src : Name → Res InS) (si : SI) : Nat → Res (List (Name × InS))
  | 0 => .ok []
  | i + 1 =>
    normFileName si i >>= fun o =>
    match o with
    | none => openNorms d src si i
    | some n =>
      (if si.compound = true ∧ si.normGens[i]? = some 0 then src n
       else Sis.openInput d n >>= fun c => .ok (isOpen (.fs c))) >>= fun s =>
      openNorms d src si i >>= fun r => .ok ((n, s) :: r)

/-- The streams of a segment that sr_setup_i opens, index.c 4644–4669, in this order: fdt fdx (fr_open
1525–1528), tfx tix (sfi_open 2159–2180), tis (tir_open 2624–2625), frq prx, norms. Each with the name of its file. -/
def openSegment (d : Disk) (si : SI) : Res (List (Name × InS)) :=
  source d si >>= fun src =>
  openExts src si [[102, 100, 116], [102, 100, 120], [116, 102, 120], [116, 105, 120], [116, 105, 115], [102, 114, 113], [112, 114, 120]] >>= fun a =>
  openNorms d src si si.normGens.length >>= fun b => .ok (a ++ b)

end Ferret.PackSeg
