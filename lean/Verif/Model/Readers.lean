import Verif.Model.BitVector
import Verif.Spec.Bytes

/-!
Model of the deletions of an index reader, c/src/index.c: SegmentReader 4241–4690 and MultiReader 4690–5020.

Simplifications: the reader holds the write lock and is up to date (ir_acquire_write_lock, 3882–3919, is in
WriterLock.lean and C32); one thread; norms, fields and postings are not in this file. A document number is an
`Int`, counts do not overflow. The `.del` files of a segment are a map from generation to bytes.
-/

namespace Ferret.Rdr
open Ferret.BitVector

/-- The loop of bv_write, index.c 4363–4365, from `bits[n-1]` down to `bits[0]`. -/
def bvWriteLoop (bits : List Word) : Nat → Res (List Byte)
  | 0 => .ok []
  | n + 1 => match bits[n]? with
    | none => .ub
    | some w => bvWriteLoop bits n >>= fun rest => .ok (beBytes 4 w.toNat ++ rest)

/-- bv_write, index.c 4358–4367; `(size-1) >> 5` is one less than the number of words. -/
def bvWrite (bv : BV) : Res (List Byte) := bvWriteLoop bv.bits (toWord bv.size) >>= fun ws => .ok (vint bv.size ++ ws)

/-- The loop of bv_read, index.c 4380–4382. -/
def bvReadLoop : Nat → List Word → List Byte → Res (List Word)
  | 0, bits, _ => .ok bits
  | n + 1, bits, l => rdBE 4 0 l >>= fun r =>
    if n < bits.length then bvReadLoop n (bits.set n (BitVec.ofNat 32 r.1)) r.2 else .ub

/-- bv_read, index.c 4369–4390. Sizes of 2^31 and more are negative as `int` and give a negative
allocation. `curr_bit` is 0 because the struct is zeroed. -/
def bvRead (file : List Byte) : Res BV :=
  rdVint file >>= fun r =>
    if r.1 ≥ 2 ^ 31 then .ub
    else bvReadLoop (toWord r.1) (List.replicate (r.1 / 32 + 1) 0#32) r.2 >>= fun bits =>
      recount ⟨bits, r.1, 0, 0, false⟩

/-- The part of SegmentReader, index.c 4243–4262, and of SegmentInfo that deletions use: `fr->size`,
`deleted_docs`, `deleted_docs_dirty`, `undelete_all`, `has_changes` and `si->del_gen`. -/
structure SegR where
  size : Nat
  del : Option BV
  dirty : Bool
  undel : Bool
  changes : Bool
  gen : Int

/-- What is on disk of a segment: the number of its documents, the generation of its deletions in the current
segments file and its `.del` files by generation. -/
structure SegDir where
  size : Nat
  gen : Int
  files : Int → Option (List Byte)

/-- sr_setup_i, index.c 4655–4661, with si_has_deletions. -/
def srOpen (s : SegDir) : Res SegR :=
  if s.gen ≥ 0 then
    match s.files s.gen with
    | none => .raise .fileNotFound
    | some b => bvRead b >>= fun bv => .ok ⟨s.size, some bv, false, false, false, s.gen⟩
  else .ok ⟨s.size, none, false, false, false, s.gen⟩

/-- sr_is_deleted_i, index.c 4280–4283. -/
def srIsDeleted (r : SegR) (d : Int) : Res Bool :=
  match r.del with
  | none => .ok false
  | some bv => get bv d

/-- sr_delete_doc_i, index.c 4330–4340. -/
def srDelete (r : SegR) (d : Int) : Res SegR :=
  set (r.del.getD new) d >>= fun bv => .ok { r with del := some bv, dirty := true, undel := false, changes := true }

/-- sr_undelete_all_i, index.c 4342–4351. -/
def srUndeleteAll (r : SegR) : SegR := { r with undel := true, dirty := false, changes := true, del := none }

/-- sr_num_docs, index.c 4457–4468. -/
def srNumDocs (r : SegR) : Int :=
  match r.del with
  | none => r.size
  | some bv => r.size - bv.count

/-- sr_has_deletions, index.c 4589–4592. -/
def srHasDeletions (r : SegR) : Bool := r.del.isSome

/-- sr_commit_i, index.c 4397–4419. Old files are only queued: a reader never removes them. -/
def srCommit (r : SegR) (files : Int → Option (List Byte)) : Res (SegR × (Int → Option (List Byte))) :=
  if r.undel || r.dirty then
    if r.undel then .ok ({ r with gen := -1, undel := false }, files)
    else match r.del with
      | none => .ub
      | some bv => bvWrite bv >>= fun b => .ok ({ r with gen := r.gen + 1, dirty := false }, fun g => if g = r.gen + 1 then some b else files g)
  else .ok (r, files)

/-- ir_commit_i, index.c 4100–4133, of a reader that is part of a MultiReader (4129). -/
def subCommit (r : SegR) (files : Int → Option (List Byte)) : Res (SegR × (Int → Option (List Byte))) :=
  if r.changes then srCommit r files >>= fun x => .ok ({ x.1 with changes := false }, x.2) else .ok (r, files)

/-! ### MultiReader -/

/-- struct MultiReader, index.c: `starts` has one more element than there are readers. -/
structure MultiR where
  subs : List SegR
  starts : List Nat
  maxDoc : Nat
  cache : Int
  hasDel : Bool
  changes : Bool

/-- The loop of mr_new, index.c 4975–4984, from document `m` on. -/
def startsFrom (m : Nat) : List Nat → List Nat
  | [] => [m]
  | s :: ss => m :: startsFrom (m + s) ss

/-- mr_new, index.c 4961–4985. -/
def mrNew (subs : List SegR) : MultiR :=
  ⟨subs, startsFrom 0 (subs.map (·.size)), (subs.map (·.size)).sum, -1, subs.any srHasDeletions, false⟩

/-- `while ((mid+1 < r_cnt) && (starts[mid+1] == mid_value)) mid += 1`, index.c 4713–4715. -/
def lastMatch (starts : List Nat) (cnt : Nat) (value : Int) : Nat → Nat → Res Nat
  | 0, mid => .ok mid
  | fuel + 1, mid =>
    if mid + 1 < cnt then
      match starts[mid + 1]? with
      | none => .ub
      | some s => if (s : Int) = value then lastMatch starts cnt value fuel (mid + 1) else .ok mid
    else .ok mid

/-- The binary search of mr_reader_index_i, index.c 4703–4719. -/
def indexLoop (starts : List Nat) (cnt : Nat) (doc : Int) : Nat → Int → Int → Res Int
  | 0, _, hi => .ok hi
  | fuel + 1, lo, hi =>
    if hi ≥ lo then
      let mid := (lo + hi) / 2
      match starts[mid.toNat]? with
      | none => .ub
      | some v =>
        if doc < v then indexLoop starts cnt doc fuel lo (mid - 1)
        else if doc > v then indexLoop starts cnt doc fuel (mid + 1) hi
        else lastMatch starts cnt v cnt mid.toNat >>= fun m => .ok m
    else .ok hi

/-- mr_reader_index_i, index.c 4696–4720; `r_cnt` rounds always suffice (`indexLoop_spec`). -/
def readerIndex (starts : List Nat) (cnt : Nat) (doc : Int) : Res Int := indexLoop starts cnt doc (cnt + 1) 0 (cnt - 1)

/-- GET_READER and `doc_num - starts[i]`, index.c 4745–4747: which reader, and which document of it. -/
def locate (starts : List Nat) (cnt : Nat) (doc : Int) : Res (Nat × Int) :=
  readerIndex starts cnt doc >>= fun i =>
    if i < 0 then .ub
    else match starts[i.toNat]? with
      | none => .ub
      | some s => if i.toNat < cnt then .ok (i.toNat, doc - s) else .ub

/-- mr_is_deleted, index.c 4868–4872. -/
def mrIsDeleted (m : MultiR) (d : Int) : Res Bool :=
  locate m.starts m.subs.length d >>= fun x =>
    match m.subs[x.1]? with
    | none => .ub
    | some r => srIsDeleted r x.2

/-- sr_get_doc, index.c 4475–4486; the stored documents of a segment are a list here (reading the file is C18), and
reading past them is undefined. -/
def srGetDoc {α : Type} (r : SegR) (docs : List α) (d : Int) : Res α :=
  srIsDeleted r d >>= fun b =>
    if b then .raise .state
    else if d < 0 then .ub
    else Res.ofOption docs[d.toNat]?

/-- mr_get_doc, index.c 4749–4753. -/
def mrGetDoc {α : Type} (m : MultiR) (docs : List (List α)) (d : Int) : Res α :=
  locate m.starts m.subs.length d >>= fun x =>
    match m.subs[x.1]?, docs[x.1]? with
    | some r, some ds => srGetDoc r ds x.2
    | _, _ => .ub

/-- mr_delete_doc_i, index.c 4891–4900. -/
def mrDelete (m : MultiR) (d : Int) : Res MultiR :=
  locate m.starts m.subs.length d >>= fun x =>
    match m.subs[x.1]? with
    | none => .ub
    | some r => srDelete r x.2 >>= fun r' => .ok { m with subs := m.subs.set x.1 r', cache := -1, hasDel := true, changes := true }

/-- mr_undelete_all_i, index.c 4902–4914. -/
def mrUndeleteAll (m : MultiR) : MultiR := { m with subs := m.subs.map srUndeleteAll, cache := -1, hasDel := false, changes := true }

/-- mr_num_docs, index.c 4722–4738, with its cache. -/
def mrNumDocs (m : MultiR) : MultiR × Int :=
  if m.cache = -1 then
    let n := (m.subs.map srNumDocs).sum
    ({ m with cache := n }, n)
  else (m, m.cache)

/-- mr_commit_i, index.c 4938–4946, stopping after `k` readers (a crash). -/
def mrCommit : Nat → List SegR → List SegDir → Res (List SegR × List SegDir)
  | k + 1, r :: rs, s :: ss => subCommit r s.files >>= fun x => mrCommit k rs ss >>= fun y => .ok (x.1 :: y.1, { s with files := x.2 } :: y.2)
  | _, rs, ss => .ok (rs, ss)

/-- sis_write of the generations in memory. -/
def saveGens : List SegR → List SegDir → List SegDir
  | r :: rs, s :: ss => { s with gen := r.gen } :: saveGens rs ss
  | _, ss => ss

/-! ### A reader on a directory -/

/-- ir_open_i, index.c 5116–5134: one segment has no MultiReader. -/
inductive IR where
  | one (r : SegR)
  | many (m : MultiR)

def openAll : List SegDir → Res (List SegR)
  | [] => .ok []
  | s :: ss => srOpen s >>= fun r => openAll ss >>= fun rs => .ok (r :: rs)

/-- ir_open_i, index.c 5116–5134. -/
def rdOpen (ss : List SegDir) : Res IR :=
  openAll ss >>= fun rs =>
    match rs with
    | [r] => .ok (.one r)
    | rs => .ok (.many (mrNew rs))

def rdMaxDoc : IR → Nat
  | .one r => r.size
  | .many m => m.maxDoc

def rdIsDeleted : IR → Int → Res Bool
  | .one r, d => srIsDeleted r d
  | .many m, d => mrIsDeleted m d

def rdNumDocs : IR → IR × Int
  | .one r => (.one r, srNumDocs r)
  | .many m => (.many (mrNumDocs m).1, (mrNumDocs m).2)

def rdHasDeletions : IR → Bool
  | .one r => srHasDeletions r
  | .many m => m.hasDel

/-- ir_delete_doc, index.c 4031–4040. -/
def rdDelete (r : IR) (d : Int) : Res IR :=
  if 0 ≤ d ∧ d < rdMaxDoc r then
    match r with
    | .one r => srDelete r d >>= fun r' => .ok (.one r')
    | .many m => mrDelete m d >>= fun m' => .ok (.many m')
  else .ok r

/-- ir_undelete_all, index.c 4022–4029. -/
def rdUndeleteAll : IR → IR
  | .one r => .one (srUndeleteAll r)
  | .many m => .many (mrUndeleteAll m)

/-- ir_commit_i, index.c 4100–4133. A single segment with no changes publishes the same generation again instead of
nothing. -/
def rdCommit : IR → List SegDir → Res (IR × List SegDir)
  | .one r, ss => match ss with
    | [s] => subCommit r s.files >>= fun x => .ok (.one x.1, [{ s with gen := x.1.gen, files := x.2 }])
    | _ => .ub
  | .many m, ss =>
    if m.changes then
      mrCommit m.subs.length m.subs ss >>= fun y => .ok (.many { m with subs := y.1, changes := false }, saveGens y.1 y.2)
    else .ok (.many m, ss)

/-- What is on disk if ir_commit_i dies before sis_write has published, after `k` of the readers. -/
def rdTorn (k : Nat) : IR → List SegDir → Res (List SegDir)
  | .one r, ss => mrCommit k [r] ss >>= fun y => .ok y.2
  | .many m, ss => if m.changes then mrCommit k m.subs ss >>= fun y => .ok y.2 else .ok ss

end Ferret.Rdr
