import Verif.Model.Basic
import Verif.Spec.History

/-!
The index writer: iw_add_doc, iw_flush_ram_segment, iw_commit_i, iw_delete_term, iw_delete_terms, iw_maybe_merge_segments,
iw_merge_segments, iw_optimize_i, iw_add_readers, iw_doc_count, iw_close and iw_open, c/src/index.c 6183–6811.

A segment is its documents, each deleted or not (the bytes of its files: C18–C22, C26, C27), and what SegmentInfo says of it.
A document is anything that has terms in fields (`Docs`). Merging keeps the documents that are not deleted, in order: that is
C27. `sis_write` replaces the list of segments on disk as a whole (C16, C17). The loops may not end: they have fuel, `none` is
"still running". `target_merge_docs *= merge_factor` is undefined if it overflows. Sums of document counts do not overflow.

Not modelled: the lock (C51), files and the deleter (C30), exceptions other than a segment's files not being there and those
of fw_open, the store of a segment being another one (sis_read and sis_new_segment always give the writer's).
-/

namespace Ferret.Writer
open Ferret Ferret.Spec

/-- SegmentInfo, index.h 176–186: the documents with whether they are deleted; `hasDel` is si_has_deletions, `del_gen >= 0`;
`sepNorms` is si_has_separate_norms; `files` whether its files were written. -/
structure Seg (α : Type) where
  docs : List (α × Bool)
  hasDel : Bool
  compound : Bool
  sepNorms : Bool
  files : Bool

/-- `si->doc_cnt`. -/
def Seg.cnt {α : Type} (s : Seg α) : Nat := s.docs.length

/-- The documents that are not deleted. -/
def Seg.live {α : Type} (s : Seg α) : List α := (s.docs.filter fun d => !d.2).map (·.1)

/-- DocWriter, index.h 835–858: whether `fw` is open, the buffered documents (`doc_num` is how many), `max_buffered_docs` as it
was when the DocWriter was made (dw_open, index.c 5478), which is how many norms there is room for (fld_inv_new 5253–5254). -/
structure Dw (α : Type) where
  isOpen : Bool
  docs : List α
  capa : Int

/-- IndexWriter and the store: `fields` are the names in `fis`, `segs` is `sis`; `disk` and `diskFields` what sis_write wrote
last. -/
structure W (α : Type) where
  cfg : Config
  fields : List (List Byte)
  segs : List (Seg α)
  dw : Option (Dw α)
  disk : List (Seg α)
  diskFields : List (List Byte)

variable {α : Type}

/-- sis_write, index.c 1129–1167. -/
def sisWrite (w : W α) : W α := { w with disk := w.segs, diskFields := w.fields }

/-- iw_merge_segments_from, index.c 6241–6278, with sm_create 5838–5856 and smi_new 5747–5771. For no segments
`ALLOC_AND_ZERO_N(SegmentMerger, 0)` is written to; for a negative number of them the size is that of no object. -/
def mergeFrom (w : W α) (min : Int) : Res (W α) :=
  if min < 0 ∨ (w.segs.length : Int) - min ≤ 0 then .ub
  else
    let old := w.segs.drop min.toNat
    if old.all (·.files) then
      .ok (sisWrite { w with segs := w.segs.take min.toNat ++
        [⟨(old.flatMap Seg.live).map fun d => (d, false), false, w.cfg.compound, false, true⟩] })
    else .raise .fileNotFound

/-- The inner loop of iw_maybe_merge_segments, index.c 6289–6298, over the segments from the last: `min_segment` and
`merge_docs`. -/
def scan (target : Int) : List (Seg α) → Int → Int × Int
  | [], d => (-1, d)
  | s :: rest, d => if (s.cnt : Int) ≥ target then (rest.length, d) else scan target rest (d + s.cnt)

/-- The loop of iw_maybe_merge_segments, index.c 6286–6308. -/
def maybeLoop : Nat → W α → Int → Option (Res (W α))
  | 0, _, _ => none
  | n + 1, w, target =>
    if target > 0 ∧ target ≤ w.cfg.maxMergeDocs then
      let p := scan target w.segs.reverse 0
      let next := fun w => if target * w.cfg.mergeFactor > intMax then some .ub else maybeLoop n w (target * w.cfg.mergeFactor)
      if p.2 ≥ target then
        match mergeFrom w (p.1 + 1) with
        | .ok w => next w
        | .raise e => some (.raise e)
        | .ub => some .ub
      else if p.1 ≤ 0 then some (.ok w)
      else next w
    else some (.ok w)

/-- iw_maybe_merge_segments, index.c 6280–6309. -/
def maybeMerge (fuel : Nat) (w : W α) : Option (Res (W α)) := maybeLoop fuel w w.cfg.mergeFactor

/-- iw_flush_ram_segment, index.c 6311–6333, and dw_flush_streams 5367–5374: the last segment gets the documents. -/
def flush (fuel : Nat) (w : W α) (dw : Dw α) : Option (Res (W α)) :=
  match w.segs.getLast? with
  | none => some .ub
  | some _ =>
    maybeMerge fuel (sisWrite { w with
      segs := w.segs.dropLast ++ [⟨dw.docs.map fun d => (d, false), false, w.cfg.compound, false, true⟩],
      dw := some { dw with isOpen := false, docs := [] } })

/-- sis_new_segment(iw->sis, 0, iw->store), index.c 1023–1026. -/
def newSeg : Seg α := ⟨[], false, false, false, false⟩

/-- A DocWriter with a segment open, index.c 6338–6343, with dw_open 5456–5486 and dw_new_segment 5488–5492. -/
def openSeg (w : W α) : W α × Dw α :=
  match w.dw with
  | none => ({ w with segs := w.segs ++ [newSeg] }, ⟨true, [], w.cfg.maxBufferedDocs⟩)
  | some dw => if dw.isOpen then (w, dw) else ({ w with segs := w.segs ++ [newSeg] }, { dw with isOpen := true })

/-- iw_add_doc, index.c 6335–6350, with dw_add_doc 5648–5690: a document with norms is written at
`norms[doc_num]`, where there is room for `capa`. -/
def addDoc (D : Docs α) (fuel : Nat) (w : W α) (d : α) (full : Bool) : Option (Res (W α)) :=
  let p := openSeg w
  if D.normed d = true ∧ ¬ ((p.2.docs.length : Int) < p.2.capa) then some .ub
  else
    let dw : Dw α := { p.2 with docs := p.2.docs ++ [d] }
    let w : W α := { p.1 with fields := p.1.fields ++ D.fields d, dw := some dw }
    if full = true ∨ (dw.docs.length : Int) ≥ w.cfg.maxBufferedDocs then flush fuel w dw else some (.ok w)

/-- iw_add_doc if fw_open (5468 or 5490) raises: the segment is in `sis` already. -/
def openFails (w : W α) : W α :=
  match w.dw with
  | none => { w with segs := w.segs ++ [newSeg] }
  | some dw => if dw.isOpen then w else { w with segs := w.segs ++ [newSeg] }

/-- iw_commit_i, index.c 6352–6357. -/
def commit (fuel : Nat) (w : W α) : Option (Res (W α)) :=
  match w.dw with
  | none => some (.ok w)
  | some dw => if dw.docs.length > 0 then flush fuel w dw else some (.ok w)

/-- What deleting does in one segment, index.c 6378–6388: sr_open, sr_delete_doc_i of each document that has the term and is
not deleted, sr_commit_i. -/
def deleteIn (p : α → Bool) (s : Seg α) : Seg α :=
  { s with docs := s.docs.map fun d => (d.1, d.2 || p d.1), hasDel := s.hasDel || s.docs.any fun d => !d.2 && p d.1 }

/-- iw_delete_term, index.c 6366–6398, and iw_delete_terms 6400–6437 (documents that have two of the terms are deleted
twice, which is the same). -/
def delete (fuel : Nat) (w : W α) (f : List Byte) (p : α → Bool) : Option (Res (W α)) :=
  if f ∈ w.fields then
    match commit fuel w with
    | some (.ok w) =>
      if w.segs.all (·.files) then
        let w' : W α := { w with segs := w.segs.map (deleteIn p) }
        some (.ok (if w.segs.any fun s => s.docs.any fun d => !d.2 && p d.1 then sisWrite w' else w'))
      else some (.raise .fileNotFound)
    | r => r
  else some (.ok w)

/-- The condition of the loop of iw_optimize_i, index.c 6443–6449. -/
def toOptimize (w : W α) : Bool :=
  match w.segs with
  | [] => false
  | [s] => s.hasDel || (w.cfg.compound && (!s.compound || s.sepNorms))
  | _ => true

/-- The loop of iw_optimize_i, index.c 6443–6452. -/
def optimizeLoop : Nat → W α → Option (Res (W α))
  | 0, _ => none
  | n + 1, w =>
    if toOptimize w then
      let min := (w.segs.length : Int) - w.cfg.mergeFactor
      match mergeFrom w (if min < 0 then 0 else min) with
      | .ok w => optimizeLoop n w
      | .raise e => some (.raise e)
      | .ub => some .ub
    else some (.ok w)

/-- iw_optimize_i, index.c 6439–6453. -/
def optimize (fuel : Nat) (w : W α) : Option (Res (W α)) :=
  match commit fuel w with
  | some (.ok w) => optimizeLoop fuel w
  | r => r

/-- iw_open, index.c 6484–6525. -/
def iwOpen (c : Config) (fields : List (List Byte)) (disk : List (Seg α)) : W α := ⟨c, fields, disk, none, disk, fields⟩

/-- iw_close, index.c 6462–6482, and iw_open of the same store. -/
def reopen (fuel : Nat) (w : W α) (c : Config) : Option (Res (W α)) :=
  match commit fuel w with
  | some (.ok w) => some (.ok (iwOpen c w.diskFields w.disk))
  | r => r

/-- iw_doc_count, index.c 6183–6195. -/
def docCount (w : W α) : Nat := (w.segs.map Seg.cnt).sum + match w.dw with | none => 0 | some dw => dw.docs.length

/-- iw_add_segment, index.c 6745–6776: the files are copied, with the documents that are deleted; iw_cp_fields 6550–6557 looks
for "<segment>.del", a name without generation, which fn_for_generation (108–127) never gives. The norms are in
files of generation 0. -/
def addSegment (D : Docs α) (w : W α) (s : Seg α) : W α :=
  { w with
    segs := w.segs ++ [⟨s.docs.map (fun d => (d.1, false)), false, false, false, true⟩]
    fields := w.fields ++ s.docs.flatMap fun d => D.fields d.1 }

/-- iw_add_readers, index.c 6778–6811, of readers with these segments. -/
def addReaders (D : Docs α) (fuel : Nat) (w : W α) (segs : List (Seg α)) : Option (Res (W α)) :=
  match optimize fuel w with
  | some (.ok w) => optimize fuel (sisWrite (segs.foldl (addSegment D) w))
  | r => r

/-- A call. -/
def step (D : Docs α) (fuel : Nat) (w : W α) : Op α → Option (Res (W α))
  | .add d full => addDoc D fuel w d full
  | .openFails _ => some (.ok (openFails w))
  | .delete f t => delete fuel w f (D.has f t)
  | .deleteAll f ts => delete fuel w f (fun d => ts.any fun t => D.has f t d)
  | .commit => commit fuel w
  | .optimize => optimize fuel w
  | .set c => some (.ok { w with cfg := c })
  | .reopen c => reopen fuel w c

/-- Calls, one after the other. -/
def run (D : Docs α) (fuel : Nat) : W α → List (Op α) → Option (Res (W α))
  | w, [] => some (.ok w)
  | w, op :: ops => match step D fuel w op with
    | some (.ok w) => run D fuel w ops
    | r => r

/-- ir_open, index.c 5102–5160, of what is on disk: the documents that are not deleted, by number. -/
def view (disk : List (Seg α)) : Res (List α) :=
  if disk.all (·.files) then .ok (disk.flatMap Seg.live) else .raise .fileNotFound

end Ferret.Writer
