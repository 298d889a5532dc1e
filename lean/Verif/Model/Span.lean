import Verif.Model.Phrase

/-!
Model of the span queries and of the enumerators of their spans, c/src/q_span.c:314-1378 (SpanTermEnum,
SpanMultiTermEnum, SpanFirstEnum, SpanOrEnum, SpanNearEnum, SpanNotEnum) and the `get_spans` functions of the
queries (1572-2283).

A C `SpanEnum` is an object with the function pointers `next`, `skip_to`, `doc`, `start` and `end`
(c/include/search.h:437-449). Here it is a state `σ` with a record `Ops σ` of functions.

Simplifications.
* Document numbers, positions and the slop are unbounded integers; INT_MAX is `Phrase.intMax`.
* `doc`, `start` and `end` are read together (`cur`): each of them fails exactly when the others do, namely when the
  queue of an `or` is empty and `pq_top` is NULL (c/src/q_span.c:845-863).
* The queue of an `or` holds pointers to enumerators, compared by what `doc`, `start` and `end` return at that time.
  Here it holds each enumerator with the span read from it after its last move.
* The positions of a term come from `Phrase.Tde`, what C22 and C24 prove the enumerators of a segment and of several
  segments to be, or, when highlighting, from the enumerator over a term vector, c/src/q_span.c:68-149 (`TvTde`). All clauses are in one field (`spanoq_add_clause_nr`, 1960-1981, raises otherwise), which the index has.
* `left` is not in the C code: a bound used only as fuel of a loop, whose exhaustion is `.ub`.
* `to_s` and `destroy` are not modelled.
-/

namespace Ferret.Span

open Ferret.Phrase (Tde tdeNext tdeSkipTo tdeNextPosition intMax)
open Ferret.Post (Posting)

variable {σ : Type}

/-- What `doc`, `start` and `end` of a span enumerator return. -/
structure Sp where
  doc : Int
  start : Int
  stop : Int
  deriving DecidableEq, Repr

/-- The function pointers of `struct FrtSpanEnum`, c/include/search.h:437-449. -/
structure Ops (σ : Type) where
  next : σ → Res (Bool × σ)
  skipTo : σ → Int → Res (Bool × σ)
  cur : σ → Res Sp
  left : σ → Nat

/-! ### SpanTermEnum -/

/-- `SpanTermEnum`, c/src/q_span.c:321-329. -/
structure TermE where
  tde : Tde
  position : Int
  doc : Int
  count : Int
  freq : Int
  deriving DecidableEq

/-- `spante_new`, c/src/q_span.c:425-447, of a term with these documents. -/
def TermE.new (ps : List Posting) : TermE := ⟨Tde.new ps, -1, -1, 0, 0⟩

/-- `ste->position = tde->next_position(tde); ste->count++; return true;`, c/src/q_span.c:346-348 and 373-375. -/
def termPos (e : TermE) : Bool × TermE :=
  let r := tdeNextPosition e.tde
  (true, { e with tde := r.2, position := r.1, count := e.count + 1 })

/-- The document and frequency after a move of the enumerator, c/src/q_span.c:338-344 and 364-371. -/
def termMoved (e : TermE) (r : Bool × Tde) : Bool × TermE :=
  if r.1 then termPos { e with tde := r.2, doc := r.2.doc, freq := r.2.freq, count := 0 }
  else (false, { e with tde := r.2, doc := intMax })

/-- `spante_next`, c/src/q_span.c:332-349. -/
def termNext (e : TermE) : Bool × TermE :=
  if e.count = e.freq then termMoved e (tdeNext e.tde) else termPos e

/-- `spante_skip_to`, c/src/q_span.c:351-376. -/
def termSkipTo (e : TermE) (target : Int) : Bool × TermE := termMoved e (tdeSkipTo e.tde target)

/-- `spante_doc`, `spante_start`, `spante_end`, c/src/q_span.c:378-391. -/
def termCur (e : TermE) : Sp := ⟨e.doc, e.position, e.position + 1⟩

/-- The positions not yet read. -/
def tdeLeft (t : Tde) : Nat := t.left.length + (t.rest.map fun p => p.occ.length).sum

def termOps : Ops TermE where
  next e := .ok (termNext e)
  skipTo e n := .ok (termSkipTo e n)
  cur e := .ok (termCur e)
  left e := tdeLeft e.tde

/-! ### Terms of a term vector -/

/-- `TVTermDocEnum`, c/src/q_span.c:70-78; `pos = none`: `positions` and `freq` are not initialised. -/
structure TvTde where
  doc : Int
  index : Nat
  pos : Option (List Int)
  deriving DecidableEq

/-- `spanq_ir_term_positions` and `tv_tde_seek`, c/src/q_span.c:135-149 and 80-94, of a term with these positions in
the term vector, or none. Without the term, `index` is not initialised either; it is not read before `positions`. -/
def TvTde.new : Option (List Int) → TvTde
  | some ps => ⟨-1, 0, some ps⟩
  | none => ⟨intMax, 0, none⟩

/-- `tv_tde_next`, c/src/q_span.c:96-106. -/
def tvNext (t : TvTde) : Bool × TvTde := if t.doc = -1 then (true, { t with doc := 0 }) else (false, { t with doc := intMax })

/-- `tv_tde_skip_to`, c/src/q_span.c:108-118. -/
def tvSkipTo (t : TvTde) (n : Int) : Bool × TvTde := if n = 0 then (true, { t with doc := 0 }) else (false, { t with doc := intMax })

/-- `tv_tde_next_position`, c/src/q_span.c:120-123. -/
def tvNextPosition (t : TvTde) : Res (Int × TvTde) :=
  Res.ofOption t.pos >>= fun ps => Res.ofOption ps[t.index]? >>= fun p => .ok (p, { t with index := t.index + 1 })

/-- `tv_tde_freq`, c/src/q_span.c:125-128. -/
def tvFreq (t : TvTde) : Res Int := Res.ofOption t.pos >>= fun ps => .ok (ps.length : Int)

/-- `SpanTermEnum`, c/src/q_span.c:321-329, over a term vector. -/
structure TvE where
  tde : TvTde
  position : Int
  doc : Int
  count : Int
  freq : Int
  deriving DecidableEq

/-- `spante_new`, c/src/q_span.c:425-447, over a term vector. -/
def TvE.new (ps : Option (List Int)) : TvE := ⟨TvTde.new ps, -1, -1, 0, 0⟩

/-- c/src/q_span.c:346-348 and 373-375, over a term vector. -/
def tvPos (e : TvE) : Res (Bool × TvE) :=
  tvNextPosition e.tde >>= fun r => .ok (true, { e with tde := r.2, position := r.1, count := e.count + 1 })

/-- c/src/q_span.c:338-344 and 364-371, over a term vector. -/
def tvMoved (e : TvE) (r : Bool × TvTde) : Res (Bool × TvE) :=
  if r.1 then tvFreq r.2 >>= fun f => tvPos { e with tde := r.2, doc := r.2.doc, freq := f, count := 0 }
  else .ok (false, { e with tde := r.2, doc := intMax })

/-- `spante_next`, c/src/q_span.c:332-349, and `spante_skip_to`, 351-376, over a term vector. -/
def tvOps : Ops TvE where
  next e := if e.count = e.freq then tvMoved e (tvNext e.tde) else tvPos e
  skipTo e n := tvMoved e (tvSkipTo e.tde n)
  cur e := .ok ⟨e.doc, e.position, e.position + 1⟩
  left e := match e.tde.pos with | none => 0 | some ps => ps.length - e.tde.index

/-! ### SpanMultiTermEnum -/

/-- `TermPosEnumWrapper`, c/src/q_span.c:456-462. -/
structure Tpew where
  tde : Tde
  doc : Int
  pos : Int
  deriving DecidableEq

/-- `tpew_less_than`, c/src/q_span.c:464-469. -/
def tpewLt (a b : Tpew) : Bool := decide (a.doc < b.doc ∨ a.doc = b.doc ∧ a.pos < b.pos)

/-- `self->doc = tpe->doc_num(tpe); self->pos = tpe->next_position(tpe);`, c/src/q_span.c:476-477 and 487-488. -/
def tpewRead (t : Tde) : Tpew :=
  let r := tdeNextPosition t
  ⟨r.2, r.2.doc, r.1⟩

/-- `tpew_next`, c/src/q_span.c:471-480. -/
def tpewNext (w : Tpew) : Bool × Tpew :=
  let r := tdeNextPosition w.tde
  if 0 > r.1 then
    let m := tdeNext r.2
    if m.1 then (true, tpewRead m.2) else (false, ⟨m.2, w.doc, r.1⟩)
  else (true, ⟨r.2, w.doc, r.1⟩)

/-- `tpew_skip_to`, c/src/q_span.c:482-494. -/
def tpewSkipTo (w : Tpew) (n : Int) : Bool × Tpew :=
  let m := tdeSkipTo w.tde n
  if m.1 then (true, tpewRead m.2) else (false, { w with tde := m.2 })

/-- `tpew_new`, c/src/q_span.c:502-510. -/
def Tpew.new (ps : List Posting) : Tpew := ⟨Tde.new ps, -1, -1⟩

/-- `SpanMultiTermEnum`, c/src/q_span.c:514-522; `pq = none`: NULL. The wrappers in the queue are those of `tpews`,
which is not read once there is a queue. -/
structure MultiE where
  pq : Option (PQ.PQ Tpew)
  tpews : List Tpew
  pos : Int
  doc : Int

/-- `spanmte_new`, c/src/q_span.c:620-649, of terms with these documents. -/
def MultiE.new (pss : List (List Posting)) : MultiE := ⟨none, pss.map Tpew.new, -1, -1⟩

/-- The loop of `spanmte_next` that fills the queue, c/src/q_span.c:534-538, over the wrappers from last to first. -/
def fillNext : List Tpew → PQ.PQ Tpew → Res (PQ.PQ Tpew)
  | [], q => .ok q
  | w :: ws, q =>
    let r := tpewNext w
    if r.1 then PQ.push tpewLt q r.2 >>= fun q => fillNext ws q else fillNext ws q

/-- The loop of `spanmte_skip_to` that fills the queue, c/src/q_span.c:571-574. -/
def fillSkip (target : Int) : List Tpew → PQ.PQ Tpew → Res (PQ.PQ Tpew)
  | [], q => .ok q
  | w :: ws, q => PQ.push tpewLt q (tpewSkipTo w target).2 >>= fun q => fillSkip target ws q

/-- `if (moved) pq_down(pq); else pq_pop(pq);` after the top has moved, c/src/q_span.c:551-556, 583-588. -/
def settle {α : Type} (lt : α → α → Bool) (q : PQ.PQ α) (r : Bool × α) : Res (PQ.PQ α) :=
  let q := { q with heap := q.heap.set 0 r.2 }
  if r.1 then PQ.down lt q.heap >>= fun h => .ok { q with heap := h }
  else PQ.pop lt q >>= fun p => .ok p.2

/-- The loop of `spanmte_next`, c/src/q_span.c:550-558; `w` is the top. -/
def multiLoop (doc pos : Int) : Nat → PQ.PQ Tpew → Tpew → Res (PQ.PQ Tpew)
  | 0, _, _ => .ub
  | fuel + 1, q, w =>
    settle tpewLt q (tpewNext w) >>= fun q =>
    match PQ.top q with
    | none => .ok q
    | some w => if w.doc = doc ∧ w.pos = pos then multiLoop doc pos fuel q w else .ok q

/-- The positions not yet delivered by the wrappers of the queue. -/
def heapLeft (h : List Tpew) : Nat := (h.map fun w => tdeLeft w.tde + 1).sum

/-- `spanmte_next` with a queue, c/src/q_span.c:542-559. -/
def multiNextQ (e : MultiE) (q : PQ.PQ Tpew) : Res (Bool × MultiE) :=
  match PQ.top q with
  | none => .ok (false, { e with pq := some q })
  | some w => multiLoop w.doc w.pos (heapLeft q.heap + 1) q w >>= fun q =>
    .ok (true, { e with pq := some q, doc := w.doc, pos := w.pos })

/-- `spanmte_next`, c/src/q_span.c:524-560. -/
def multiNext (e : MultiE) : Res (Bool × MultiE) :=
  match e.pq with
  | none => fillNext e.tpews.reverse (PQ.new e.tpews.length) >>= fun q => multiNextQ e q
  | some q => multiNextQ e q

/-- The loop of `spanmte_skip_to`, c/src/q_span.c:581-589. -/
def multiSkipLoop (target : Int) : Nat → PQ.PQ Tpew → Res (PQ.PQ Tpew)
  | 0, _ => .ub
  | fuel + 1, q =>
    match PQ.top q with
    | none => .ok q
    | some w =>
      if target > w.doc then settle tpewLt q (tpewSkipTo w target) >>= fun q => multiSkipLoop target fuel q
      else .ok q

/-- `spanmte_skip_to` with a queue, c/src/q_span.c:577-590. -/
def multiSkipQ (e : MultiE) (q : PQ.PQ Tpew) (target : Int) : Res (Bool × MultiE) :=
  if q.heap.length = 0 then .ok (false, { e with pq := some q, doc := -1 })
  else multiSkipLoop target (heapLeft q.heap + 1) q >>= fun q => multiNextQ e q

/-- `spanmte_skip_to`, c/src/q_span.c:562-591. -/
def multiSkipTo (e : MultiE) (target : Int) : Res (Bool × MultiE) :=
  match e.pq with
  | none => fillSkip target e.tpews.reverse (PQ.new e.tpews.length) >>= fun q => multiSkipQ e q target
  | some q => multiSkipQ e q target

/-- `spanmte_doc`, `spanmte_start`, `spanmte_end`, c/src/q_span.c:593-606. -/
def multiOps : Ops MultiE where
  next := multiNext
  skipTo := multiSkipTo
  cur e := .ok ⟨e.doc, e.pos, e.pos + 1⟩
  left e := match e.pq with | none => heapLeft e.tpews | some q => heapLeft q.heap

/-! ### SpanFirstEnum -/

/-- `SpanFirstEnum`, c/src/q_span.c:659-663, with the `end` of its query. -/
structure FirstE (σ : Type) where
  sub : σ
  limit : Int

/-- `spanfe_next`, c/src/q_span.c:666-676. -/
def firstLoop (o : Ops σ) (limit : Int) : Nat → σ → Res (Bool × σ)
  | 0, _ => .ub
  | fuel + 1, s => o.next s >>= fun r =>
    if r.1 then o.cur r.2 >>= fun x => if x.stop ≤ limit then .ok (true, r.2) else firstLoop o limit fuel r.2
    else .ok (false, r.2)

def firstNext (o : Ops σ) (e : FirstE σ) : Res (Bool × FirstE σ) :=
  firstLoop o e.limit (o.left e.sub + 1) e.sub >>= fun r => .ok (r.1, { e with sub := r.2 })

/-- `spanfe_skip_to`, c/src/q_span.c:678-692. -/
def firstSkipTo (o : Ops σ) (e : FirstE σ) (target : Int) : Res (Bool × FirstE σ) :=
  o.skipTo e.sub target >>= fun r =>
  if r.1 then o.cur r.2 >>= fun x =>
    if x.stop ≤ e.limit then .ok (true, { e with sub := r.2 }) else firstNext o { e with sub := r.2 }
  else .ok (false, { e with sub := r.2 })

/-- `spanfe_doc`, `spanfe_start`, `spanfe_end`, c/src/q_span.c:694-710. -/
def firstOps (o : Ops σ) : Ops (FirstE σ) where
  next := firstNext o
  skipTo := firstSkipTo o
  cur e := o.cur e.sub
  left e := o.left e.sub

/-! ### SpanOrEnum -/

/-- An enumerator in the queue of an `or`, with the span it is at. -/
structure Item (σ : Type) where
  at_ : Sp
  st : σ

/-- `SpanOrEnum`, c/src/q_span.c:754-761. An enumerator that is not in the queue after the first move is not used
again, so `subs` is only read at the first. -/
structure OrE (σ : Type) where
  queue : PQ.PQ (Item σ)
  subs : List σ
  firstTime : Bool

/-- `span_less_than`, c/src/q_span.c:764-780. -/
def spLt (a b : Sp) : Bool :=
  if a.doc = b.doc then
    if a.start = b.start then decide (a.stop < b.stop) else decide (a.start < b.start)
  else decide (a.doc < b.doc)

def itemLt (a b : Item σ) : Bool := spLt a.at_ b.at_

/-- `spanoe_new`, c/src/q_span.c:904-933. -/
def OrE.new (subs : List σ) : OrE σ := ⟨PQ.new subs.length, subs, true⟩

/-- The loops c/src/q_span.c:789-794 and 821-826 that fill the queue; `move` is `next`, or `skip_to` the target. -/
def orFill (o : Ops σ) (move : σ → Res (Bool × σ)) : List σ → PQ.PQ (Item σ) → Res (PQ.PQ (Item σ))
  | [], q => .ok q
  | s :: ss, q => move s >>= fun r =>
    if r.1 then o.cur r.2 >>= fun x => PQ.push itemLt q ⟨x, r.2⟩ >>= fun q => orFill o move ss q
    else orFill o move ss q

/-- The enumerator at the top moves: `if (move) pq_down; else pq_pop;`, c/src/q_span.c:803-809 and 833-838. -/
def orMove (o : Ops σ) (move : σ → Res (Bool × σ)) (q : PQ.PQ (Item σ)) (t : Item σ) : Res (PQ.PQ (Item σ)) :=
  move t.st >>= fun r =>
  if r.1 then o.cur r.2 >>= fun x => settle itemLt q (true, ⟨x, r.2⟩) else settle itemLt q (false, ⟨t.at_, r.2⟩)

/-- `spanoe_next`, c/src/q_span.c:782-812. -/
def orNext (o : Ops σ) (e : OrE σ) : Res (Bool × OrE σ) :=
  if e.firstTime then
    orFill o o.next e.subs e.queue >>= fun q => .ok (decide (q.heap.length ≠ 0), { e with queue := q, firstTime := false })
  else
    match PQ.top e.queue with
    | none => .ok (false, e)
    | some t => orMove o o.next e.queue t >>= fun q => .ok (decide (q.heap.length ≠ 0), { e with queue := q })

/-- The loop of `spanoe_skip_to`, c/src/q_span.c:830-839. -/
def orSkipLoop (o : Ops σ) (target : Int) : Nat → PQ.PQ (Item σ) → Res (PQ.PQ (Item σ))
  | 0, _ => .ub
  | fuel + 1, q =>
    match PQ.top q with
    | none => .ok q
    | some t =>
      if t.at_.doc < target then orMove o (fun s => o.skipTo s target) q t >>= fun q => orSkipLoop o target fuel q
      else .ok q

def orLeft (o : Ops σ) (h : List (Item σ)) : Nat := (h.map fun t => o.left t.st + 1).sum

/-- `spanoe_skip_to`, c/src/q_span.c:814-843. -/
def orSkipTo (o : Ops σ) (e : OrE σ) (target : Int) : Res (Bool × OrE σ) :=
  (if e.firstTime then orFill o (fun s => o.skipTo s target) e.subs e.queue
   else orSkipLoop o target (orLeft o e.queue.heap + 1) e.queue) >>= fun q =>
  .ok (decide (q.heap.length ≠ 0), { e with queue := q, firstTime := false })

/-- `spanoe_doc`, `spanoe_start`, `spanoe_end`, c/src/q_span.c:845-863: a NULL pointer if the queue is empty. -/
def orOps (o : Ops σ) : Ops (OrE σ) where
  next := orNext o
  skipTo := orSkipTo o
  cur e := match PQ.top e.queue with | none => .ub | some t => .ok t.at_
  left e := if e.firstTime then (e.subs.map fun s => o.left s).sum else orLeft o e.queue.heap

/-! ### SpanNearEnum -/

/-- `SpanNearEnum`, c/src/q_span.c:942-954. -/
structure NearE (σ : Type) where
  subs : List σ
  slop : Int
  current : Nat
  at_ : Sp
  firstTime : Bool
  inOrder : Bool

/-- `spanne_new`, c/src/q_span.c:1210-1243. -/
def NearE.new (subs : List σ) (slop : Int) (inOrder : Bool) : NearE σ := ⟨subs, slop, 0, ⟨-1, -1, -1⟩, true, inOrder⟩

/-- `sne->span_enums[i]` and where it is. -/
def nearSub (o : Ops σ) (e : NearE σ) (i : Nat) : Res (σ × Sp) :=
  Res.ofOption e.subs[i]? >>= fun s => o.cur s >>= fun x => .ok (s, x)

/-- The enumerator `i` after a move. -/
def NearE.put (e : NearE σ) (i : Nat) (s : σ) : NearE σ := { e with subs := e.subs.set i s }

/-- `SpNEn_NEXT`, c/src/q_span.c:957-960: the number of the following enumerator. -/
def NearE.following (e : NearE σ) : Nat := (e.current + 1) % e.subs.length

/-- The loop of `sne_init`, c/src/q_span.c:968-974, `n` iterations. -/
def nearInit (o : Ops σ) : Nat → NearE σ → Int → Res (Bool × NearE σ)
  | 0, e, _ => .ok (true, e)
  | n + 1, e, prev =>
    let e := { e with current := e.following }
    Res.ofOption e.subs[e.current]? >>= fun s => o.skipTo s prev >>= fun r =>
    let e := e.put e.current r.2
    if r.1 then o.cur r.2 >>= fun x => nearInit o n e x.doc else .ok (false, e)

/-- The loop of `sne_goto_next_doc`, c/src/q_span.c:985-991; the enumerator `current` is looked at. -/
def gotoLoop (o : Ops σ) : Nat → NearE σ → Int → Res (Bool × NearE σ)
  | 0, _, _ => .ub
  | fuel + 1, e, prev =>
    nearSub o e e.current >>= fun y =>
    if y.2.doc < prev then
      o.skipTo y.1 prev >>= fun r =>
      let e := e.put e.current r.2
      if r.1 then o.cur r.2 >>= fun x => gotoLoop o fuel { e with current := e.following } x.doc
      else .ok (false, e)
    else .ok (true, e)

def nearLeft (o : Ops σ) (e : NearE σ) : Nat := (e.subs.map fun s => o.left s).sum

/-- `sne_goto_next_doc`, c/src/q_span.c:978-993. -/
def gotoNextDoc (o : Ops σ) (e : NearE σ) : Res (Bool × NearE σ) :=
  nearSub o e e.current >>= fun y =>
  gotoLoop o (nearLeft o e + 1) { e with current := e.following } y.2.doc

/-- What the loop c/src/q_span.c:1004-1019 has found. -/
structure Window where
  maxEnd : Int
  minStart : Int
  lengths : Int
  min : Option Nat
  deriving DecidableEq

/-- The loop c/src/q_span.c:1008-1019, from the enumerator `i` on. -/
def windowLoop (o : Ops σ) : List σ → Nat → Window → Res Window
  | [], _, w => .ok w
  | s :: ss, i, w => o.cur s >>= fun x =>
    let w := if x.stop > w.maxEnd then { w with maxEnd := x.stop } else w
    let w := if x.start < w.minStart then { w with minStart := x.start, min := some i } else w
    windowLoop o ss (i + 1) { w with lengths := w.lengths + (x.stop - x.start) }

/-- `sne_next_unordered_match`, c/src/q_span.c:995-1038. -/
def unordered (o : Ops σ) : Nat → NearE σ → Res (Bool × NearE σ)
  | 0, _ => .ub
  | fuel + 1, e =>
    windowLoop o e.subs 0 ⟨0, intMax, 0, none⟩ >>= fun w =>
    Res.ofOption w.min >>= fun m =>
    let e := { e with current := m }
    nearSub o e m >>= fun y =>
    if w.maxEnd - w.minStart - w.lengths ≤ e.slop then .ok (true, { e with at_ := ⟨y.2.doc, w.minStart, w.maxEnd⟩ })
    else
      o.next y.1 >>= fun r =>
      let e := e.put m r.2
      if r.1 then o.cur r.2 >>= fun x =>
        if y.2.doc < x.doc then
          gotoNextDoc o e >>= fun g => if g.1 then unordered o fuel g.2 else .ok (false, g.2)
        else unordered o fuel e
      else .ok (false, e)

/-- The loop c/src/q_span.c:1064-1072: enumerator `s`, at `x`, moves while it is before `prev`. -/
def orderLoop (o : Ops σ) (prev : Sp) : Nat → σ → Sp → Res (Option Sp × σ)
  | 0, _, _ => .ub
  | fuel + 1, s, x =>
    if x.doc = prev.doc ∧ (x.start < prev.start ∨ x.start = prev.start ∧ x.stop < prev.stop) then
      o.next s >>= fun r =>
      if r.1 then o.cur r.2 >>= fun y => orderLoop o prev fuel r.2 y else .ok (none, r.2)
    else .ok (some x, s)

/-- How the loop c/src/q_span.c:1059-1085 ends: all enumerators are in order, with the last span and the sum of the
lengths; or one was in another document, and `sne_goto_next_doc` found one for all; or there is none. -/
inductive Ordered where
  | inOrder (last : Sp) (lengths : Int)
  | moved
  | finished
  deriving DecidableEq

/-- The loop c/src/q_span.c:1059-1085, `n` enumerators from `i` on; `prev` are `prev_doc`, `prev_start`, `prev_end`. -/
def chainLoop (o : Ops σ) : Nat → Nat → Sp → Int → NearE σ → Res (Ordered × NearE σ)
  | 0, _, prev, lengths, e => .ok (.inOrder prev lengths, e)
  | n + 1, i, prev, lengths, e =>
    nearSub o e i >>= fun y =>
    orderLoop o prev (o.left y.1 + 1) y.1 y.2 >>= fun r =>
    let e := e.put i r.2
    match r.1 with
    | none => .ok (.finished, e)
    | some x =>
      if x.doc ≠ prev.doc then
        gotoNextDoc o { e with current := i } >>= fun g => .ok (if g.1 then .moved else .finished, g.2)
      else chainLoop o n (i + 1) x (lengths + (x.stop - x.start)) e

/-- `sne_next_ordered_match`, c/src/q_span.c:1040-1112. With one enumerator (which `get_spans` excludes) the C code
would return 0 as document and end. -/
def ordered (o : Ops σ) : Nat → NearE σ → Res (Bool × NearE σ)
  | 0, _ => .ub
  | fuel + 1, e =>
    nearSub o e 0 >>= fun y =>
    chainLoop o (e.subs.length - 1) 1 y.2 (y.2.stop - y.2.start) e >>= fun c =>
    let e := c.2
    match c.1 with
    | .finished => .ok (false, e)
    | .moved => ordered o fuel e
    | .inOrder last lengths =>
      if last.stop - y.2.start - lengths ≤ e.slop then
        .ok (true, { e with at_ := ⟨last.doc, y.2.start, last.stop⟩, current := 0 })
      else
        nearSub o e 0 >>= fun z =>
        o.next z.1 >>= fun r =>
        let e := e.put 0 r.2
        if r.1 then o.cur r.2 >>= fun x =>
          if x.doc ≠ last.doc then
            gotoNextDoc o { e with current := 0 } >>= fun g => if g.1 then ordered o fuel g.2 else .ok (false, g.2)
          else ordered o fuel e
        else .ok (false, e)

/-- `sne_next_match`, c/src/q_span.c:1114-1139. `first_time` is true, and not set to false, unless it is false: lines
1120-1123 are not reached. -/
def nextMatch (o : Ops σ) (e : NearE σ) : Res (Bool × NearE σ) :=
  (if e.firstTime then .ok (true, e)
   else nearSub o e e.current >>= fun y => nearInit o (e.subs.length - 1) e y.2.doc) >>= fun r =>
  if r.1 then
    let e := r.2
    nearSub o e e.current >>= fun a => nearSub o e e.following >>= fun b =>
    (if a.2.doc > b.2.doc then gotoNextDoc o e else .ok (true, e)) >>= fun g =>
    if g.1 then
      if g.2.inOrder then ordered o (nearLeft o g.2 + 1) g.2 else unordered o (nearLeft o g.2 + 1) g.2
    else .ok (false, g.2)
  else .ok (false, r.2)

/-- `spanne_next`, c/src/q_span.c:1141-1150, and `spanne_skip_to`, 1152-1160; `move` is `next`, or `skip_to` the
target. -/
def nearMove (o : Ops σ) (move : σ → Res (Bool × σ)) (e : NearE σ) : Res (Bool × NearE σ) :=
  Res.ofOption e.subs[e.current]? >>= fun s => move s >>= fun r =>
  let e := e.put e.current r.2
  if r.1 then nextMatch o e else .ok (false, e)

/-- `spanne_doc`, `spanne_start`, `spanne_end`, c/src/q_span.c:1162-1175. -/
def nearOps (o : Ops σ) : Ops (NearE σ) where
  next e := nearMove o o.next e
  skipTo e n := nearMove o (fun s => o.skipTo s n) e
  cur e := .ok e.at_
  left e := nearLeft o e

/-! ### SpanNotEnum -/

/-- `SpanNotEnum`, c/src/q_span.c:1254-1261. -/
structure NotE (σ : Type) where
  inc : σ
  exc : σ
  moreInc : Bool
  moreExc : Bool

/-- `spanxe_new`, c/src/q_span.c:1357-1378. -/
def notNew (o : Ops σ) (inc exc : σ) : Res (NotE σ) :=
  o.next exc >>= fun r => .ok ⟨inc, r.2, true, r.1⟩

/-- Do the documents agree, and is the first span before the second? c/src/q_span.c:1278-1279. -/
def before (e i : Sp) : Bool := decide (i.doc = e.doc ∧ e.stop ≤ i.start)

/-- The loop c/src/q_span.c:1277-1281 and 1308-1312, when `more_exc` holds; `i` is where `inc` is. -/
def excLoop (o : Ops σ) (i : Sp) : Nat → σ → Res (Bool × σ)
  | 0, _ => .ub
  | fuel + 1, s => o.cur s >>= fun e =>
    if before e i then o.next s >>= fun r => if r.1 then excLoop o i fuel r.2 else .ok (false, r.2)
    else .ok (true, s)

/-- c/src/q_span.c:1277-1287 and 1308-1318, `inc` at `i`: true if the span of `inc` is not excluded. -/
def excluded (o : Ops σ) (i : Sp) (x : NotE σ) : Res (Bool × NotE σ) :=
  if x.moreExc then
    excLoop o i (o.left x.exc + 1) x.exc >>= fun r =>
    let x := { x with exc := r.2, moreExc := r.1 }
    if r.1 then o.cur r.2 >>= fun e => .ok (decide (i.doc ≠ e.doc ∨ i.stop ≤ e.start), x)
    else .ok (true, x)
  else .ok (true, x)

/-- The loop c/src/q_span.c:1272-1290, when `more_inc` holds. -/
def notLoop (o : Ops σ) : Nat → NotE σ → Res (Bool × NotE σ)
  | 0, _ => .ub
  | fuel + 1, x =>
    if x.moreExc then
      o.cur x.inc >>= fun i => o.cur x.exc >>= fun e =>
      (if i.doc > e.doc then o.skipTo x.exc i.doc >>= fun r => .ok { x with exc := r.2, moreExc := r.1 } else .ok x) >>= fun x =>
      excluded o i x >>= fun r =>
      if r.1 then .ok (true, r.2)
      else o.next r.2.inc >>= fun n =>
        let x := { r.2 with inc := n.2, moreInc := n.1 }
        if n.1 then notLoop o fuel x else .ok (false, x)
    else .ok (true, x)

/-- `spanxe_next`, c/src/q_span.c:1264-1292. -/
def notNext (o : Ops σ) (x : NotE σ) : Res (Bool × NotE σ) :=
  if x.moreInc then
    o.next x.inc >>= fun n =>
    let x := { x with inc := n.2, moreInc := n.1 }
    if n.1 then notLoop o (o.left x.inc + 1) x else .ok (false, x)
  else .ok (false, x)

/-- The first statement of `spanxe_skip_to`, c/src/q_span.c:1300-1302; `false`: it returns. -/
def notSkipInc (o : Ops σ) (x : NotE σ) (target : Int) : Res (Bool × NotE σ) :=
  if x.moreInc then o.skipTo x.inc target >>= fun n => .ok (n.1, { x with inc := n.2, moreInc := n.1 })
  else .ok (true, x)

/-- The second statement, c/src/q_span.c:1304-1306. It reads where `exc` is even if `more_exc` does not hold. -/
def notSkipExc (o : Ops σ) (x : NotE σ) : Res (NotE σ) :=
  if x.moreInc then
    o.cur x.inc >>= fun i => o.cur x.exc >>= fun e =>
    if i.doc > e.doc then o.skipTo x.exc i.doc >>= fun r => .ok { x with exc := r.2, moreExc := r.1 } else .ok x
  else .ok x

/-- `spanxe_skip_to`, c/src/q_span.c:1294-1321. -/
def notSkipTo (o : Ops σ) (x : NotE σ) (target : Int) : Res (Bool × NotE σ) :=
  notSkipInc o x target >>= fun n =>
  if n.1 then
    notSkipExc o n.2 >>= fun x =>
    if x.moreExc then
      o.cur x.inc >>= fun i => excluded o i x >>= fun r => if r.1 then .ok (true, r.2) else notNext o r.2
    else .ok (true, x)
  else .ok (false, n.2)

/-- `spanxe_doc`, `spanxe_start`, `spanxe_end`, c/src/q_span.c:1323-1339. -/
def notOps (o : Ops σ) : Ops (NotE σ) where
  next := notNext o
  skipTo := notSkipTo o
  cur x := o.cur x.inc
  left x := o.left x.inc

/-! ### Enumerators of span queries -/

/-- Span queries, c/include/search.h:451-563, after `rewrite` (which turns a SpanPrefixQuery into a
SpanMultiTermQuery). -/
inductive SpanQ (T : Type) where
  | term (t : T)
  | multi (ts : List T)
  | first (q : SpanQ T) (limit : Int)
  | or (qs : List (SpanQ T))
  | near (qs : List (SpanQ T)) (slop : Int) (inOrder : Bool)
  | not (inc exc : SpanQ T)

variable {T : Type}

/-- The enumerators of queries nested at most `n` deep. -/
inductive Node (σ : Type) where
  | sub (s : σ)
  | term (e : TermE)
  | multi (e : MultiE)
  | tv (e : TvE)
  | tvMulti
  | first (e : FirstE σ)
  | or (e : OrE σ)
  | near (e : NearE σ)
  | not (e : NotE σ)

/-- A move of an enumerator of one kind is one of the enumerator. -/
def wrap {α : Type} (f : α → Node σ) (r : Res (Bool × α)) : Res (Bool × Node σ) := r >>= fun x => .ok (x.1, f x.2)

/-- Calls through the function pointers of a `SpanEnum`. A `SpanMultiTermEnum` over a term vector reads the positions of
its terms without looking at their number (`tpew_next`, c/src/q_span.c:471-480, and `tv_tde_next_position`), until it is
past their end; here (`tvMulti`) its first move is taken to be undefined. -/
def nodeOps (o : Ops σ) : Ops (Node σ) where
  next
    | .sub s => wrap .sub (o.next s)
    | .term e => wrap .term (termOps.next e)
    | .multi e => wrap .multi (multiOps.next e)
    | .tv e => wrap .tv (tvOps.next e)
    | .tvMulti => .ub
    | .first e => wrap .first ((firstOps o).next e)
    | .or e => wrap .or ((orOps o).next e)
    | .near e => wrap .near ((nearOps o).next e)
    | .not e => wrap .not ((notOps o).next e)
  skipTo
    | .sub s, n => wrap .sub (o.skipTo s n)
    | .term e, n => wrap .term (termOps.skipTo e n)
    | .multi e, n => wrap .multi (multiOps.skipTo e n)
    | .tv e, n => wrap .tv (tvOps.skipTo e n)
    | .tvMulti, _ => .ub
    | .first e, n => wrap .first ((firstOps o).skipTo e n)
    | .or e, n => wrap .or ((orOps o).skipTo e n)
    | .near e, n => wrap .near ((nearOps o).skipTo e n)
    | .not e, n => wrap .not ((notOps o).skipTo e n)
  cur
    | .sub s => o.cur s
    | .term e => termOps.cur e
    | .multi e => multiOps.cur e
    | .tv e => tvOps.cur e
    | .tvMulti => .ok ⟨-1, -1, 0⟩
    | .first e => (firstOps o).cur e
    | .or e => (orOps o).cur e
    | .near e => (nearOps o).cur e
    | .not e => (notOps o).cur e
  left
    | .sub s => o.left s
    | .term e => termOps.left e
    | .multi e => multiOps.left e
    | .tv e => tvOps.left e
    | .tvMulti => 0
    | .first e => (firstOps o).left e
    | .or e => (orOps o).left e
    | .near e => (nearOps o).left e
    | .not e => (notOps o).left e

/-- Enumerators nested at most `n` deep. -/
def Lvl : Nat → Type
  | 0 => Empty
  | n + 1 => Node (Lvl n)

def lvlOps : (n : Nat) → Ops (Lvl n)
  | 0 => ⟨Empty.elim, fun e _ => e.elim, Empty.elim, Empty.elim⟩
  | n + 1 => nodeOps (lvlOps n)

/-- One after the other. -/
def mapR {α β : Type} (f : α → Res β) : List α → Res (List β)
  | [] => .ok []
  | a :: l => f a >>= fun b => mapR f l >>= fun bs => .ok (b :: bs)

/-- Where the positions of terms come from: an index, `ix t` being the documents of the term `t` in the field; or a
term vector, `tv t` being the positions of the term `t`, if it is in the vector. -/
inductive Src (T : Type) where
  | index (ix : T → List Posting)
  | vector (tv : T → Option (List Int))

/-- `spante_new`, c/src/q_span.c:425-447. -/
def Src.term : Src T → T → Node σ
  | .index ix, t => .term (TermE.new (ix t))
  | .vector tv, t => .tv (TvE.new (tv t))

/-- `spanmte_new`, c/src/q_span.c:620-649. -/
def Src.multi : Src T → List T → Node σ
  | .index ix, ts => .multi (MultiE.new (ts.map ix))
  | .vector _, _ => .tvMulti

/-- `get_spans`: `spante_new`, `spanmte_new`, `spanfe_new` (727-744), `spanoq_get_spans` (1862-1871),
`spannq_get_spans` (2046-2056), `spanxe_new`. Not nested more than `n` deep, otherwise `.ub`. -/
def getSpansFrom (src : Src T) : (n : Nat) → SpanQ T → Res (Lvl n)
  | 0, _ => .ub
  | _ + 1, .term t => .ok (src.term t)
  | _ + 1, .multi ts => .ok (src.multi ts)
  | n + 1, .first q limit => getSpansFrom src n q >>= fun s => .ok (.first ⟨s, limit⟩)
  | n + 1, .or [q] => getSpansFrom src n q >>= fun s => .ok (.sub s)
  | n + 1, .or qs => mapR (getSpansFrom src n) qs >>= fun ss => .ok (.or (OrE.new ss))
  | n + 1, .near [q] _ _ => getSpansFrom src n q >>= fun s => .ok (.sub s)
  | n + 1, .near qs slop inOrder => mapR (getSpansFrom src n) qs >>= fun ss => .ok (.near (NearE.new ss slop inOrder))
  | n + 1, .not inc exc => getSpansFrom src n inc >>= fun a => getSpansFrom src n exc >>= fun b =>
    notNew (lvlOps n) a b >>= fun x => .ok (.not x)

/-- `get_spans` over an index. -/
abbrev getSpans (ix : T → List Posting) (n : Nat) (q : SpanQ T) : Res (Lvl n) := getSpansFrom (.index ix) n q

mutual
/-- How deep a query is nested. -/
def SpanQ.depth : SpanQ T → Nat
  | .term _ | .multi _ => 1
  | .first q _ => q.depth + 1
  | .or qs | .near qs _ _ => depths qs + 1
  | .not a b => max a.depth b.depth + 1

/-- How deep the deepest of some queries is nested. -/
def depths : List (SpanQ T) → Nat
  | [] => 0
  | q :: qs => max q.depth (depths qs)
end

/-- `while (sp_enum->next(sp_enum)) matchv_add(...)`, c/src/q_span.c:166-170: the spans an enumerator goes through. -/
def collect (o : Ops σ) : Nat → σ → Res (List Sp)
  | 0, _ => .ub
  | fuel + 1, s => o.next s >>= fun r =>
    if r.1 then o.cur r.2 >>= fun x => collect o fuel r.2 >>= fun l => .ok (x :: l) else .ok []

/-- The spans of a query, from `get_spans` to the end. -/
def spansFrom (src : Src T) (q : SpanQ T) : Res (List Sp) :=
  getSpansFrom src q.depth q >>= fun s => collect (lvlOps q.depth) ((lvlOps q.depth).left s + 1) s

/-- The spans of a query in an index. -/
abbrev spansOf (ix : T → List Posting) (q : SpanQ T) : Res (List Sp) := spansFrom (.index ix) q

end Ferret.Span
