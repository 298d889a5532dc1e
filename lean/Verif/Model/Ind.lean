import Verif.Spec.Ind

/-!
Model of an Index (ind.c), which opens and closes readers and writers as its calls need them:
INDEX_CLOSE_READER 10–19, AUTOFLUSH_IR 21–24, AUTOFLUSH_IW 26–33, index_flush 108–117,
ensure_writer_open 119–129, ensure_reader_open 131–145, ensure_searcher_open 147–153, index_size
155–165, index_optimize 167–176, index_del_doc_with_key_i 202–238, index_add_doc_i 240–248,
index_get_doc 304–310, index_delete 359–368, index_delete_term 370–391, index_delete_query 404–414.

Of the reader and the writer the model has what the Index relies on: documents by number with whether
they are deleted, the version, the write lock, what is not yet committed (index.c: ir_acquire_write_lock
3882–3918, ir_delete_doc 4031–4040, ir_commit_i 4100–4133, sr_is_latest_i 4392–4395, mr_is_latest_i
4926–4936, ir_open_i 5102–5149, iw_add_doc 6335–6350, iw_commit_i 6352–6357, iw_delete_term 6366–6398,
iw_optimize_i 6439–6453, iw_close 6462–6482, iw_open 6484–6525). What segments there are is reduced to
their number; what flushing and merging does to numbers is a parameter of each call (C27, C28). A search
gives the live documents that match, in order (C35, C36). Other processes have one writer at a time.
Each call is atomic, except that another process may open a writer after an Index closed its reader and
before it opens its writer (`grab`). The build is the one of the Ruby binding, without threads: in the
threaded build an exception leaves the mutex of the Index locked (ind.c 157, 252, 361, 373, 407).
-/

namespace Ferret.Ind
open Ferret.Spec (Com Key IndOp numbered)

/-- An open reader. -/
structure Rd (α : Type) where
  /-- its documents, with its own deletions -/
  com : Com α
  /-- sis->version -/
  ver : Nat
  stale : Bool
  /-- write_lock is not NULL -/
  lock : Bool
  /-- has_changes -/
  changes : Bool

/-- An open writer. -/
structure Wr (α : Type) where
  /-- its sis, as committed -/
  com : Com α
  ver : Nat
  /-- documents in memory -/
  buf : List α

/-- An Index (ind.h 12–38) and the directory it is about. -/
structure Ix (α : Type) where
  disk : Com α
  /-- the version in the segments file -/
  ver : Nat
  /-- whether the lock file exists -/
  file : Bool
  /-- an open writer of another process, with its version -/
  other : Option Nat
  ir : Option (Rd α)
  iw : Option (Wr α)
  autoFlush : Bool
  checkLatest : Bool

variable {α β γ K V : Type}

/-- Goes on unless there was an exception; the state is the one at the exception. -/
def andThen (r : Ix α × Res β) (f : Ix α → β → Ix α × Res γ) : Ix α × Res γ :=
  match r with
  | (s, .ok b) => f s b
  | (s, .raise e) => (s, .raise e)
  | (s, .ub) => (s, .ub)

/-- ir_commit_i, index.c 4100–4133. -/
def irCommit (s : Ix α) : Ix α :=
  match s.ir with
  | none => s
  | some r =>
    if r.changes then
      { s with disk := r.com, ver := r.ver + 1, file := if r.lock then false else s.file,
               ir := some ⟨r.com, r.ver + 1, r.stale, false, false⟩ }
    else s

/-- INDEX_CLOSE_READER, ind.c 10–19, with ir_close, index.c 4142–4173. -/
def closeReader (s : Ix α) : Ix α := { irCommit s with ir := none }

/-- iw_commit_i, index.c 6352–6357, with iw_flush_ram_segment. -/
def iwCommit (σ : Com α → Com α) (s : Ix α) (w : Wr α) : Ix α :=
  if w.buf.isEmpty then { s with iw := some w }
  else
    let c := σ ⟨w.com.docs ++ w.buf.map (·, false), w.com.segs + 1⟩
    { s with disk := c, ver := w.ver + 1, iw := some ⟨c, w.ver + 1, []⟩ }

/-- iw_close, index.c 6462–6482. -/
def closeWriter (σ : Com α → Com α) (s : Ix α) : Ix α :=
  match s.iw with
  | none => s
  | some w => { iwCommit σ s w with iw := none, file := false }

/-- ensure_writer_open, ind.c 119–129, with iw_open, index.c 6484–6525, whose failure removes the lock
file (6506–6509). -/
def ensureWriter (grab : Bool) (s : Ix α) : Ix α × Res Unit :=
  match s.iw with
  | some _ => (s, .ok ())
  | none =>
    let s := closeReader s
    let s := if grab && !s.file then { s with file := true, other := some s.ver } else s
    if s.file then ({ s with file := false }, .raise .lock)
    else ({ s with file := true, iw := some ⟨s.disk, s.ver, []⟩ }, .ok ())

/-- ir_open, index.c 5102–5160. -/
def openReader (s : Ix α) : Ix α := { s with ir := some ⟨s.disk, s.ver, false, false, false⟩ }

/-- ir_is_latest, index.c 4392–4395 and 4926–4936: without segments there is no reader to ask. -/
def isLatest (s : Ix α) (r : Rd α) : Bool := r.com.segs == 0 || s.ver == r.ver

/-- ensure_reader_open, ind.c 131–145, and ensure_searcher_open 147–153. -/
def ensureReader (σ : Com α → Com α) (s : Ix α) : Ix α :=
  match s.ir with
  | some r => if s.checkLatest && !isLatest s r then openReader (closeReader s) else s
  | none => openReader (closeWriter σ s)

/-- ir_delete_doc, index.c 4031–4040, with ir_acquire_write_lock 3882–3918. -/
def irDelete (n : Nat) (s : Ix α) : Ix α × Res Unit :=
  match s.ir with
  | none => (s, .ub)
  | some r =>
    if n < r.com.docs.length then
      let del (r : Rd α) : Rd α :=
        { r with com := ⟨r.com.docs.modify n fun x => (x.1, true), r.com.segs⟩, lock := true, changes := true }
      if r.stale then (s, .raise .state)
      else if r.lock then ({ s with ir := some (del r) }, .ok ())
      else if s.file then ({ s with ir := some { r with lock := true } }, .raise .lock)   -- write_lock stays set
      else if s.ver > r.ver then ({ s with ir := some { r with stale := true } }, .raise .state)
      else ({ s with file := true, ir := some (del r) }, .ok ())
    else (s, .ok ())

/-- AUTOFLUSH_IR, ind.c 21–24. -/
def flushIr (s : Ix α) : Ix α := if s.autoFlush then irCommit s else s

/-- AUTOFLUSH_IW, ind.c 26–33. -/
def flushIw (σ : Com α → Com α) (s : Ix α) : Ix α := if s.autoFlush then closeWriter σ s else s

/-- The loops of index_delete_term, ind.c 378–381 (`flush`: commits after each), and
index_delete_query, 398–410. -/
def deleteAll (flush : Bool) : List Nat → Ix α → Ix α × Res Unit
  | [], s => (s, .ok ())
  | n :: ns, s => andThen (irDelete n s) fun s _ => deleteAll flush ns (if flush then flushIr s else s)

/-- The numbers of the documents of the open reader that a search or an enumerator gives. -/
def hits (p : α → Bool) (s : Ix α) : List Nat :=
  match s.ir with
  | none => []
  | some r => ((numbered r.com.docs).filter fun x => p x.2).map (·.1)

/-- The live documents of the open reader with their numbers. -/
def shown (s : Ix α) : List (Nat × α) :=
  match s.ir with
  | none => []
  | some r => numbered r.com.docs

/-- iw_delete_term, index.c 6366–6398. -/
def iwDeleteTerm (p : α → Bool) (known : List α → Bool) (σ : Com α → Com α) (s : Ix α) : Ix α × Res Unit :=
  match s.iw with
  | none => (s, .ub)
  | some w =>
    if known (w.com.docs.map (·.1) ++ w.buf) then
      let s := iwCommit σ s w
      match s.iw with
      | none => (s, .ub)
      | some w =>
        let ns := ((numbered w.com.docs).filter fun x => p x.2).map (·.1)
        if ns.isEmpty then (s, .ok ())
        else
          let c : Com α := ⟨ns.foldl (fun l n => l.modify n fun x => (x.1, true)) w.com.docs, w.com.segs⟩
          ({ s with disk := c, ver := w.ver + 1, iw := some ⟨c, w.ver + 1, w.buf⟩ }, .ok ())
    else (s, .ok ())

/-- index_del_doc_with_key_i, ind.c 202–238. A document that has a field has a first value (208,
215: data[0]). With a key of one field a writer deletes the term; the field is taken as known. With
more (or no) fields a query with the terms of all fields that the document has is searched for; a query
without clauses finds nothing. -/
def delWithKey (k : Key α K V) (d : α) (grab : Bool) (σ : Com α → Com α) (s : Ix α) : Ix α × Res Unit :=
  match k.fields with
  | [f] =>
    andThen (ensureWriter grab s) fun s _ =>
      match k.value f d with
      | some v => iwDeleteTerm (k.has f v) (fun _ => true) σ s
      | none => (s, .ok ())
  | fs =>
    let s := ensureReader σ s
    let qs := fs.filterMap fun f => (k.value f d).map (k.has f)
    match (if qs.isEmpty then [] else hits (fun x => qs.all (· x)) s) with
    | [] => (s, .ok ())
    | [n] => irDelete n s
    | _ :: _ :: _ => (s, .raise .arg)

/-- iw_add_doc, index.c 6335–6350. -/
def iwAdd (d : α) (full : Bool) (σ : Com α → Com α) (s : Ix α) : Ix α × Res Unit :=
  match s.iw with
  | none => (s, .ub)
  | some w =>
    let w := { w with buf := w.buf ++ [d] }
    (if full then iwCommit σ s w else { s with iw := some w }, .ok ())

/-- index_add_doc_i, ind.c 240–248. -/
def addDoc (key : Option (Key α K V)) (d : α) (full grab : Bool) (σ : Com α → Com α) (s : Ix α) : Ix α × Res Unit :=
  andThen (match key with | none => (s, .ok ()) | some k => delWithKey k d grab σ s) fun s _ =>
  andThen (ensureWriter grab s) fun s _ =>
  andThen (iwAdd d full σ s) fun s _ => (flushIw σ s, .ok ())

/-- index_delete_term, ind.c 370–391. -/
def deleteTerm (p : α → Bool) (known : List α → Bool) (σ : Com α → Com α) (s : Ix α) : Ix α × Res Unit :=
  match s.ir with
  | some _ => deleteAll true (hits p s) s
  | none => andThen (ensureWriter false s) fun s _ => iwDeleteTerm p known σ s

/-- index_delete_query, ind.c 404–414. -/
def deleteQuery (p : α → Bool) (σ : Com α → Com α) (s : Ix α) : Ix α × Res Unit :=
  let s := ensureReader σ s
  andThen (deleteAll false (hits p s) s) fun s _ => (flushIr s, .ok ())

/-- iw_optimize_i, index.c 6439–6453. -/
def iwOptimize (merges : Bool) (σ : Com α → Com α) (s : Ix α) : Ix α × Res Unit :=
  match s.iw with
  | none => (s, .ub)
  | some w =>
    let s := iwCommit σ s w
    match s.iw with
    | none => (s, .ub)
    | some w =>
      if merges then ({ s with disk := σ w.com, ver := w.ver + 1, iw := some ⟨σ w.com, w.ver + 1, w.buf⟩ }, .ok ())
      else (s, .ok ())

/-- index_flush, ind.c 108–117. -/
def flush (σ : Com α → Com α) (s : Ix α) : Ix α :=
  match s.ir with
  | some _ => irCommit s
  | none => closeWriter σ s

/-- One call. A process without a writer cannot commit or close one: here, that is refused. -/
def step (key : Option (Key α K V)) (s : Ix α) : IndOp α → Ix α × Res (List (Nat × α))
  | .read σ => let s := ensureReader σ s; (s, .ok (shown s))
  | .add d full grab σ => andThen (addDoc key d full grab σ s) fun s _ => (s, .ok [])
  | .delete n σ =>
    let s := ensureReader σ s
    let o := shown s
    andThen (irDelete n s) fun s _ => (flushIr s, .ok o)
  | .deleteTerm p known σ => andThen (deleteTerm p known σ s) fun s _ => (s, .ok [])
  | .deleteQuery p σ => andThen (deleteQuery p σ s) fun s _ => (s, .ok [])
  | .optimize merges σ =>
    andThen (ensureWriter false s) fun s _ =>
    andThen (iwOptimize merges σ s) fun s _ => (flushIw σ s, .ok [])
  | .flush σ => (flush σ s, .ok [])
  | .otherOpen =>
    if s.file then ({ s with file := false }, .raise .lock)
    else ({ s with file := true, other := some s.ver }, .ok [])
  | .otherCommit c =>
    match s.other with
    | some v => ({ s with disk := c, ver := v + 1, other := some (v + 1) }, .ok [])
    | none => (s, .raise .lock)
  | .otherClose =>
    match s.other with
    | some _ => ({ s with file := false, other := none }, .ok [])
    | none => (s, .raise .lock)

/-- A history of calls, with what each gave. -/
def run (key : Option (Key α K V)) : Ix α → List (IndOp α) → Ix α × List (IndOp α × Res (List (Nat × α)))
  | s, [] => (s, [])
  | s, op :: ops =>
    let r := step key s op
    let r' := run key r.1 ops
    (r'.1, (op, r.2) :: r'.2)

/-- A new Index on a directory that nobody is writing to, ind.c 46–94. -/
def fresh (c : Com α) (v : Nat) (autoFlush checkLatest : Bool) : Ix α :=
  ⟨c, v, false, none, none, none, autoFlush, checkLatest⟩

end Ferret.Ind
