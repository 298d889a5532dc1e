import Verif.Spec.EnumDel

/-!
Enumerations of documents of a reader through which documents are deleted (index.c): stde_new 3090–3120, stde_next 2939–2967, stde_skip_to
2999–3062, mtde_next_tde 3243–3257, mtde_next 3316–3329, mtde_skip_to 3356–3369, mtde_new 3410–3421, sr_delete_doc_i and sr_undelete_all_i 4330–4351,
sr_is_deleted_i 4280–4283, sr_is_deleted 4578–4587, sr_term_docs 4542–4545, mr_is_deleted 4868–4878, mr_delete_doc_i 4891–4900, mr_undelete_all_i 4902–4915,
ir_delete_doc 4031–4040, ir_term_docs_for 4080–4087, ir_get_doc_with_term 4044–4055; and the lookups of an Index (ind.c): index_term_id 324–334,
index_get_doc_term 338–352, index_get_doc_id 355–357, index_delete_term 370–391, index_delete_id 394–396.

The vectors of deleted documents are objects in a heap: an enumeration keeps the pointer that the reader of its segment had when it was opened, and
undoing deletions frees the vector. Using a freed vector is `Res.ub`.

Simplified: the postings of a term in a segment are the list of its documents (C21), skipping with the skip list passes over those before the
target (C22), the reader of a segment is found by adding sizes (C25), a vector is the list of the numbers set in it (C01), a term includes its field. Not modelled:
committing (AUTOFLUSH_IR in index_delete_term; C72), which leaves the vectors alone, the write lock (C51, C95), seeking an enumeration again (C24).
-/

namespace Ferret.EnumDel
open Ferret Ferret.Spec

/-- The reader of a segment: its documents, and the vector of deleted documents (`deleted_docs`, NULL when none). -/
structure Seg where
  seg : EnumSeg
  del : Option Nat

/-- An enumeration of one segment: where it begins (`starts`), its number of documents, the documents not yet read, and the vector. -/
structure Sub where
  base : Nat
  size : Nat
  rest : List Nat
  del : Option Nat

/-- A reader, the vectors (`none` once freed) and the enumerations opened (`none` once closed). -/
structure Rd where
  segs : List Seg
  heap : List (Option (List Nat))
  enums : List (Option (List Sub))

/-- bv_get. -/
def marked (heap : List (Option (List Nat))) (r d : Nat) : Res Bool :=
  match heap[r]? with
  | some (some l) => .ok (decide (d ∈ l))
  | _ => .ub

/-- stde_next, index.c 2939–2967: the document given and those left. -/
def stdeNext (heap : List (Option (List Nat))) (del : Option Nat) : List Nat → Res (Option Nat × List Nat)
  | [] => .ok (none, [])
  | d :: rest => match del with
    | none => .ok (some d, rest)
    | some r => marked heap r d >>= fun m => if m then stdeNext heap del rest else .ok (some d, rest)

/-- stde_skip_to, index.c 2999–3062, in segment numbers. -/
def stdeSkipTo (heap : List (Option (List Nat))) (del : Option Nat) (base target : Nat) (rest : List Nat) : Res (Option Nat × List Nat) :=
  stdeNext heap del (rest.dropWhile (fun d => decide (base + d < target)))

/-- mtde_next, index.c 3316–3329, with mtde_next_tde: segments that have given all are passed over. -/
def subsNext (heap : List (Option (List Nat))) : List Sub → Res (Option Nat × List Sub)
  | [] => .ok (none, [])
  | u :: us =>
    stdeNext heap u.del u.rest >>= fun r =>
    match r.1 with
    | some d => .ok (some (u.base + d), { u with rest := r.2 } :: us)
    | none => subsNext heap us >>= fun q => .ok (q.1, { u with rest := [] } :: q.2)

/-- mtde_skip_to, index.c 3356–3369: segments before the target are left. -/
def subsSkipTo (heap : List (Option (List Nat))) (target : Nat) : List Sub → Res (Option Nat × List Sub)
  | [] => .ok (none, [])
  | u :: us =>
    (if target < u.base + u.size then stdeSkipTo heap u.del u.base target u.rest else .ok (none, [])) >>= fun r =>
    match r.1 with
    | some d => .ok (some (u.base + d), { u with rest := r.2 } :: us)
    | none => subsSkipTo heap target us >>= fun q => .ok (q.1, { u with rest := [] } :: q.2)

/-- ir_term_docs_for, index.c 4080–4087: an enumeration of every segment, from document `b` on. -/
def openSubs (t : Nat) : Nat → List Seg → List Sub
  | _, [] => []
  | b, s :: r => ⟨b, s.seg.size, s.seg.docs t, s.del⟩ :: openSubs t (b + s.seg.size) r

/-- sr_delete_doc_i, index.c 4330–4340: a vector is made if there is none. -/
def srDelete (heap : List (Option (List Nat))) (s : Seg) (d : Nat) : Res (Seg × List (Option (List Nat))) :=
  match s.del with
  | none => .ok ({ s with del := some heap.length }, heap ++ [some [d]])
  | some r => match heap[r]? with
    | some (some l) => .ok (s, heap.set r (some (d :: l)))
    | _ => .ub

/-- mr_delete_doc_i, index.c 4891–4900. -/
def mrDelete (heap : List (Option (List Nat))) : List Seg → Nat → Res (List Seg × List (Option (List Nat)))
  | [], _ => .ub
  | s :: r, d =>
    if d < s.seg.size then srDelete heap s d >>= fun q => .ok (q.1 :: r, q.2)
    else mrDelete heap r (d - s.seg.size) >>= fun q => .ok (s :: q.1, q.2)

/-- max_doc: mr_max_doc, index.c 4740–4743. -/
def maxDoc (segs : List Seg) : Nat := (segs.map (·.seg.size)).sum

/-- ir_delete_doc, index.c 4031–4040. -/
def deleteDoc (m : Rd) (d : Nat) : Res Rd :=
  if d < maxDoc m.segs then mrDelete m.heap m.segs d >>= fun q => .ok { m with segs := q.1, heap := q.2 } else .ok m

/-- sr_undelete_all_i, index.c 4342–4351, with mr_undelete_all_i 4902–4915: the vectors are freed. -/
def undeleteAll (heap : List (Option (List Nat))) : List Seg → List Seg × List (Option (List Nat))
  | [] => ([], heap)
  | s :: r => match s.del with
    | none => let q := undeleteAll heap r
      (s :: q.1, q.2)
    | some x => let q := undeleteAll (heap.set x none) r
      ({ s with del := none } :: q.1, q.2)

/-- mr_is_deleted, index.c 4868–4878, with sr_is_deleted_i. -/
def isDeleted (heap : List (Option (List Nat))) : List Seg → Nat → Res Bool
  | [], _ => .ub
  | s :: r, d =>
    if d < s.seg.size then match s.del with
      | none => .ok false
      | some x => marked heap x d
    else isDeleted heap r (d - s.seg.size)

/-- index_term_id, ind.c 324–334, index_get_doc_term 338–352 and ir_get_doc_with_term, index.c 4044–4055: the number of the document. -/
def lookup (m : Rd) (t : Nat) : Res (Option Nat) :=
  subsNext m.heap (openSubs t 0 m.segs) >>= fun r => .ok r.1

/-- The loop of index_delete_term, ind.c 376–381; `n` bounds the number of documents. -/
def deleteLoop : (n : Nat) → Rd → List Sub → Res Rd
  | 0, _, _ => .ub
  | n + 1, m, us =>
    subsNext m.heap us >>= fun r =>
    match r.1 with
    | none => .ok m
    | some d => deleteDoc m d >>= fun m => deleteLoop n m r.2

/-- index_delete_term, ind.c 370–391, with a reader open, and index_delete_id 394–396. -/
def deleteTerm (m : Rd) (t : Nat) : Res Rd :=
  deleteLoop (((openSubs t 0 m.segs).map (fun u => u.rest.length)).sum + 1) m (openSubs t 0 m.segs)

/-- An enumeration that is open. -/
def getEnum (m : Rd) (e : Nat) : Res (List Sub) :=
  match m.enums[e]? with
  | some (some us) => .ok us
  | _ => .ub

/-- One call. -/
def step (m : Rd) : EnumOp → Res (EnumObs × Rd)
  | .openEnum t => .ok (.unit, { m with enums := m.enums ++ [some (openSubs t 0 m.segs)] })
  | .next e => getEnum m e >>= fun us => subsNext m.heap us >>= fun r => .ok (.doc r.1, { m with enums := m.enums.set e (some r.2) })
  | .skipTo e target => getEnum m e >>= fun us => subsSkipTo m.heap target us >>= fun r => .ok (.doc r.1, { m with enums := m.enums.set e (some r.2) })
  | .close e => getEnum m e >>= fun _ => .ok (.unit, { m with enums := m.enums.set e none })
  | .delete d => deleteDoc m d >>= fun m => .ok (.unit, m)
  | .undelete => let q := undeleteAll m.heap m.segs
    .ok (.unit, { m with segs := q.1, heap := q.2 })
  | .isDeleted d => isDeleted m.heap m.segs d >>= fun b => .ok (.bool b, m)
  | .lookup t => lookup m t >>= fun d => .ok (.doc d, m)
  | .deleteTerm t => deleteTerm m t >>= fun m => .ok (.unit, m)

/-- Calls one after the other. -/
def run (m : Rd) : List EnumOp → Res (List EnumObs × Rd)
  | [] => .ok ([], m)
  | op :: ops => step m op >>= fun r => run r.2 ops >>= fun r' => .ok (r.1 :: r'.1, r'.2)

/-- A reader of segments without deletions. -/
def fresh (segs : List EnumSeg) : Rd := ⟨segs.map (fun s => ⟨s, none⟩), [], []⟩

end Ferret.EnumDel
