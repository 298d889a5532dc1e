import Verif.Model.Deleter
import Verif.Model.Readers
import Verif.Spec.Norms

/-!
Norms: reading them, setting them and committing them. c/src/index.c 4194–4238 (Norm, norm_create, norm_rewrite), 4287–4328 (sr_get_norms_into_i, sr_get_norms_i, sr_set_norm_i),
4415–4437 (sr_commit_i: the norms), 4502–4517 (sr_get_norms, sr_get_norms_into), 4593–4608 (sr_open_norms), 4771–4820 (mr_get_norms, mr_get_norms_into), 4879–4889 (mr_set_norm_i),
4936–4944 (mr_commit_i), 3972–4022 (ir_set_norm_i, ir_set_norm, ir_get_norms_i, ir_get_norms, ir_get_norms_into), 4100–4133 (ir_commit_i); c/src/q_span.c 211, 300 (how span queries
read norms).

Simplifications.
* Fields are numbers. That a field is not known gives norms of 0 (ir_get_norms_i) and is not here.
* The hash of norms and the cache are functions of field numbers (C05).
* A stream has the bytes of the file as it was when it was opened (C31). The bytes that are written are in the file when it is closed (C09, C10).
* The commit of segment infos is that a reader opened afterwards sees them (C16, C17). The files that are queued to be deleted are deleted at the end.
* The number of documents of the stored fields is that of the segment info.
* Only what concerns norms is here; locks are in C32 and C51, deletions in C26.
* A pointer to norms is a field and which of the arrays made for it, in the order in which they were made: only the last of them can be alive.
-/

namespace Ferret.Norms
open Ferret Ferret.Spec Ferret.Sis Ferret.Rdr Ferret.Dlr

/-- Norm, index.c 4194–4199. -/
structure Norm where
  file : List Byte
  bytes : Option (List Byte)
  dirty : Bool

/-- What of a SegmentReader is about norms, index.c 4244–4260; `changes` is has_changes. -/
structure Sr where
  si : SI
  norms : Nat → Option Norm
  dirty : Bool
  changes : Bool

/-- SR_SIZE -/
def Sr.size (r : Sr) : Nat := r.si.docCnt.toNat

/-- A file store. -/
local notation "Store" => Name → Option (List Byte)

/-- An index: its files, the files in the compound file of each segment, and the segments as committed. -/
structure Disk where
  files : Store
  cfs : Name → Store
  segs : List SI

/-- store->open_input -/
def openInput (s : Store) (n : Name) : Res (List Byte) :=
  match s n with
  | some b => .ok b
  | none => .raise .fileNotFound

/-- The loop of sr_open_norms, index.c 4599–4606, for the fields below `n`. -/
def openNorms (d : Disk) (si : SI) : Nat → (Nat → Option Norm) → Res (Nat → Option Norm)
  | 0, norms => .ok norms
  | i + 1, norms =>
    normFileName si i >>= fun name =>
      match name with
      | none => openNorms d si i norms
      | some n =>
        openInput (if si.compound ∧ si.normGens[i]? = some 0 then d.cfs si.name else d.files) n >>= fun b =>
          openNorms d si i fun f => if f = i then some ⟨b, none, false⟩ else norms f

/-- sr_open, for norms: sr_open_norms, index.c 4593–4608. -/
def srOpen (d : Disk) (si : SI) : Res Sr := openNorms d si si.normGens.length (fun _ => none) >>= fun norms => .ok ⟨si, norms, false, false⟩

/-- is_read_bytes from the start. -/
def readBytes (file : List Byte) (n : Nat) : Res (List Byte) := if n ≤ file.length then .ok (file.take n) else .raise .eof

/-- sr_get_norms_into_i, index.c 4287–4302: what it writes. -/
def srInto (r : Sr) (f : Nat) : Res (List Byte) :=
  match r.norms f with
  | none => .ok (List.replicate r.size 0)
  | some n =>
    match n.bytes with
    | some b => .ok b
    | none => readBytes n.file r.size

/-- sr_get_norms_i, index.c 4305–4317: `none` is NULL. -/
def srNorms (r : Sr) (f : Nat) : Res (Option (List Byte) × Sr) :=
  match r.norms f with
  | none => .ok (none, r)
  | some n =>
    match n.bytes with
    | some b => .ok (some b, r)
    | none => srInto r f >>= fun b => .ok (some b, { r with norms := fun f' => if f' = f then some { n with bytes := some b } else r.norms f' })

/-- sr_set_norm_i, index.c 4320–4328, with ir_set_norm_i, 3972–3979, which sets has_changes. Outside of the array is undefined. -/
def srSet (r : Sr) (doc : Int) (f : Nat) (v : Byte) : Res Sr :=
  match r.norms f with
  | none => .ok { r with changes := true }
  | some n =>
    srNorms r f >>= fun x =>
      match x.1 with
      | none => .ub
      | some b =>
        if 0 ≤ doc ∧ doc.toNat < b.length then
          .ok { r with norms := fun f' => if f' = f then some ⟨n.file, some (b.set doc.toNat v), true⟩ else r.norms f', dirty := true, changes := true }
        else .ub

/-- norm_rewrite, index.c 4223–4238: the files, what is queued to be deleted, and the reader after it. Without bytes there is a null pointer. -/
def rewrite (files : Store) (queue : List Name) (r : Sr) (f : Nat) (n : Norm) : Res (Store × List Name × Sr) :=
  normFileName r.si f >>= fun old =>
    normFileName (advanceNormGen r.si f) f >>= fun new =>
      match new, n.bytes with
      | some name, some b =>
        if r.size ≤ b.length then
          .ok (fun x => if x = name then some (b.take r.size) else files x, (match old with | some o => queue ++ [o] | none => queue),
            { r with si := advanceNormGen r.si f, norms := fun f' => if f' = f then some { n with dirty := false } else r.norms f' })
        else .ub
      | _, _ => .ub

/-- The loop of sr_commit_i, index.c 4425–4434, for the fields below `i`. `fields` says which are indexed. -/
def commitLoop (fields : List Bool) : Nat → Store → List Name → Sr → Res (Store × List Name × Sr)
  | 0, files, queue, r => .ok (files, queue, r)
  | i + 1, files, queue, r =>
    if fields[i]? = some true then
      match r.norms i with
      | some n => if n.dirty then rewrite files queue r i n >>= fun x => commitLoop fields i x.1 x.2.1 x.2.2 else commitLoop fields i files queue r
      | none => commitLoop fields i files queue r
    else commitLoop fields i files queue r

/-- ir_commit_i of a segment reader with sr_commit_i, index.c 4100–4133, 4415–4437: nothing without changes. -/
def srCommit (fields : List Bool) (files : Store) (queue : List Name) (r : Sr) : Res (Store × List Name × Sr) :=
  if r.changes then
    if r.dirty then commitLoop fields fields.length files queue r >>= fun x => .ok (x.1, x.2.1, { x.2.2 with dirty := false, changes := false })
    else .ok (files, queue, { r with changes := false })
  else .ok (files, queue, r)

/-- MultiReader. The cache has the array and how many were made for the field before it. -/
structure Mr where
  subs : List Sr
  map : Option (List (List Int))
  cache : Nat → Option (Nat × List Byte)
  made : Nat → Nat
  changes : Bool

/-- mr_new, index.c 4961–4980 -/
def Mr.starts (m : Mr) : List Nat := startsFrom 0 (m.subs.map Sr.size)

/-- max_doc of a MultiReader -/
def Mr.max (m : Mr) : Nat := (m.subs.map Sr.size).sum

/-- mr_get_field_num; outside of the map is undefined. -/
def Mr.fieldNum (m : Mr) (i f : Nat) : Res Int :=
  match m.map with
  | none => .ok f
  | some t =>
    match t[i]? with
    | none => .ub
    | some l => Res.ofOption l[f]?

/-- Bytes are written to memory; outside of it is undefined. -/
def writeAt (buf : List Byte) (off : Nat) (b : List Byte) : Res (List Byte) :=
  if off + b.length ≤ buf.length then .ok (buf.take off ++ b ++ buf.drop (off + b.length)) else .ub

/-- The loops of mr_get_norms and mr_get_norms_into, index.c 4783–4789, 4810–4816, from reader `i` on, which starts at `off`. -/
def mrFill (m : Mr) (f : Nat) : List Sr → Nat → Nat → List Byte → Res (List Byte)
  | [], _, _, buf => .ok buf
  | r :: rs, i, off, buf =>
    m.fieldNum i f >>= fun k =>
      if k < 0 then mrFill m f rs (i + 1) (off + r.size) buf
      else srInto r k.toNat >>= fun b => writeAt buf off b >>= fun buf => mrFill m f rs (i + 1) (off + r.size) buf

/-- mr_get_norms, index.c 4771–4795: the array, and which. -/
def mrNorms (m : Mr) (f : Nat) : Res ((Nat × List Byte) × Mr) :=
  match m.cache f with
  | some x => .ok (x, m)
  | none =>
    mrFill m f m.subs 0 0 (List.replicate m.max 0) >>= fun b =>
      let x := (m.made f, b)
      .ok (x, { m with cache := fun f' => if f' = f then some x else m.cache f', made := fun f' => if f' = f then m.made f + 1 else m.made f' })

/-- What is at a pointer that mr_get_norms gave. Once the array is freed that is undefined. -/
def mrLook (m : Mr) (f which : Nat) : Res (List Byte) :=
  match m.cache f with
  | some x => if x.1 = which then .ok x.2 else .ub
  | none => .ub

/-- mr_get_norms_into, index.c 4797–4820: memory of the caller afterwards. -/
def mrInto (m : Mr) (f : Nat) (buf : List Byte) : Res (List Byte) :=
  match m.cache f with
  | some x => writeAt buf 0 x.2
  | none => mrFill m f m.subs 0 0 buf

/-- mr_set_norm_i, index.c 4879–4889, with ir_set_norm_i. -/
def mrSet (m : Mr) (doc : Int) (f : Nat) (v : Byte) : Res Mr :=
  locate m.starts m.subs.length doc >>= fun x =>
    m.fieldNum x.1 f >>= fun k =>
      if k < 0 then .ok { m with changes := true }
      else match m.subs[x.1]? with
        | none => .ub
        | some r => srSet r x.2 k.toNat v >>= fun r =>
          .ok { m with subs := m.subs.set x.1 r, cache := fun f' => if f' = k.toNat then none else m.cache f', changes := true }

/-- The loop of mr_commit_i, index.c 4936–4944. -/
def commitSubs (fields : List Bool) : List Sr → Store → List Name → Res (Store × List Name × List Sr)
  | [], files, queue => .ok (files, queue, [])
  | r :: rs, files, queue =>
    srCommit fields files queue r >>= fun x =>
      commitSubs fields rs x.1 x.2.1 >>= fun y => .ok (y.1, y.2.1, x.2.2 :: y.2.2)

/-- The readers that ir_open gives: for one segment and for others. -/
inductive Reader where
  | one (r : Sr)
  | many (m : Mr)

/-- The loop over the segments of ir_open. -/
def openAll (d : Disk) : List SI → Res (List Sr)
  | [] => .ok []
  | si :: l => srOpen d si >>= fun r => openAll d l >>= fun rs => .ok (r :: rs)

/-- ir_open, index.c 5101–5150, for norms: one segment is read as it is. -/
def irOpen (d : Disk) : Res Reader :=
  openAll d d.segs >>= fun rs =>
    match rs with
    | [r] => .ok (.one r)
    | _ => .ok (.many ⟨rs, none, fun _ => none, fun _ => 0, false⟩)

/-- ir_get_norms_i, index.c 3989–4002: fields without norms have norms of 0. -/
def irNorms (x : Reader) (f : Nat) : Res (List Byte × Reader) :=
  match x with
  | .one r => srNorms r f >>= fun y => .ok ((match y.1 with | some b => b | none => List.replicate r.size 0), .one y.2)
  | .many m => mrNorms m f >>= fun y => .ok (y.1.2, .many y.2)

/-- ir_get_norms_into, index.c 4010–4022. -/
def irInto (x : Reader) (f : Nat) (buf : List Byte) : Res (List Byte) :=
  match x with
  | .one r => srInto r f >>= fun b => writeAt buf 0 b
  | .many m => mrInto m f buf

/-- ir_set_norm, index.c 3981–3987. -/
def irSet (x : Reader) (doc : Int) (f : Nat) (v : Byte) : Res Reader :=
  match x with
  | .one r => srSet r doc f v >>= fun r => .ok (.one r)
  | .many m => mrSet m doc f v >>= fun m => .ok (.many m)

/-- ir_commit, index.c 4100–4140: nothing without changes. The queued files are deleted. -/
def irCommit (fields : List Bool) (d : Disk) (x : Reader) : Res (Disk × Reader) :=
  match x with
  | .one r =>
    if r.changes then
      srCommit fields d.files [] r >>= fun y => .ok ({ d with files := fun n => if n ∈ y.2.1 then none else y.1 n, segs := [y.2.2.si] }, .one y.2.2)
    else .ok (d, x)
  | .many m =>
    if m.changes then
      commitSubs fields m.subs d.files [] >>= fun y =>
        .ok ({ d with files := fun n => if n ∈ y.2.1 then none else y.1 n, segs := y.2.2.map Sr.si }, .many { m with subs := y.2.2, changes := false })
    else .ok (d, x)

/-- What an operation of a program gives. -/
def step (fields : List Bool) (d : Disk) (x : Reader) : NOp → Res (List Byte × Disk × Reader)
  | .set doc f v => irSet x doc f v >>= fun x => .ok ([], d, x)
  | .norms f => irNorms x f >>= fun y => .ok (y.1, d, y.2)
  | .into f buf => irInto x f buf >>= fun b => .ok (b, d, x)
  | .commit => irCommit fields d x >>= fun y => .ok ([], y.1, y.2)
  | .other f => irOpen d >>= fun o => irNorms o f >>= fun y => .ok (y.1, d, x)

def run (fields : List Bool) (d : Disk) (x : Reader) : List NOp → Res (List (List Byte))
  | [] => .ok []
  | op :: ops => step fields d x op >>= fun y => run fields y.2.1 y.2.2 ops >>= fun l => .ok (y.1 :: l)

/-- spansc_score, q_span.c 211, 300: the norm of a document, without asking whether there are norms. -/
def spanNorm (x : Reader) (f doc : Nat) : Res Byte :=
  match x with
  | .one r => srNorms r f >>= fun y => match y.1 with | some b => Res.ofOption b[doc]? | none => .ub
  | .many m => mrNorms m f >>= fun y => Res.ofOption y.1.2[doc]?

end Ferret.Norms
