import Verif.Model.PriorityQueue
import Verif.Spec.BoolQuery

/-!
Model of the scorers that enumerate the documents matching a query: c/src/q_boolean.c (all
scorers), the term scorer of c/src/q_term.c, the match-all scorer of c/src/q_match_all.c.

A C `Scorer` is an object with the function pointers `next`, `skip_to`, `score` and the field
`doc` (c/include/search.h:623-632). Here it is a state `σ` with a record `Ops σ S` of
functions.

Simplifications.
* Document numbers are unbounded integers, scores an abstract type `S` with the arithmetic
  `Arith S` (float rounding is not modelled).
* `score` also returns by how much it raises `num_matches` of the coordinator of the enclosing
  boolean scorer (the C code adds to the shared object). Clause scorers never do (0).
* `left` is not in the C code: a state-computed bound used only as fuel of the loops, whose
  exhaustion is `.ub`; the theorems show it is never exhausted.
* `destroy` and `explain` are not modelled; a destroyed scorer (SCORER_NULLIFY) is `none`.
-/

namespace Ferret.Scorer

open Ferret.Spec (Occur)

variable {σ ρ ε S : Type}

/-- `struct FrtScorer`, c/include/search.h:623-632. -/
structure Ops (σ S : Type) where
  next : σ → Res (Bool × σ)
  skipTo : σ → Int → Res (Bool × σ)
  score : σ → Res (S × Nat × σ)
  doc : σ → Int
  left : σ → Nat

/-- The score arithmetic: `coord` is `sim_coord` of the query's similarity, `dcoord` that of
the default similarity (c/src/similarity.c:101). -/
structure Arith (S : Type) where
  zero : S
  add : S → S → S
  mul : S → S → S
  coord : Nat → Nat → S
  dcoord : Nat → Nat → S

/-- Two kinds of scorer behind the same function pointers (C dispatch through the object). -/
def sumOps (a : Ops ρ S) (b : Ops ε S) : Ops (ρ ⊕ ε) S where
  next
    | .inl s => a.next s >>= fun r => .ok (r.1, .inl r.2)
    | .inr s => b.next s >>= fun r => .ok (r.1, .inr r.2)
  skipTo
    | .inl s, n => a.skipTo s n >>= fun r => .ok (r.1, .inl r.2)
    | .inr s, n => b.skipTo s n >>= fun r => .ok (r.1, .inr r.2)
  score
    | .inl s => a.score s >>= fun r => .ok (r.1, r.2.1, .inl r.2.2)
    | .inr s => b.score s >>= fun r => .ok (r.1, r.2.1, .inr r.2.2)
  doc
    | .inl s => a.doc s
    | .inr s => b.doc s
  left
    | .inl s => a.left s
    | .inr s => b.left s

/-! ### TermScorer -/

/-- `struct TermScorer`, c/src/q_term.c:18-30. `buf` holds `docs[i], freqs[i]` for
`i < pointer_max`; `tde` the postings its enumerator has not delivered yet. -/
structure Term where
  buf : List (Int × Nat)
  pointer : Nat
  tde : List (Int × Nat)
  doc : Int
  deriving DecidableEq, Repr

/-- `tsc_new` on a fresh enumerator, c/src/q_term.c:117-137 (zeroed memory). -/
def Term.new (postings : List (Int × Nat)) : Term := ⟨[], 0, postings, 0⟩

/-- `tsc_next`, c/src/q_term.c:50-68 with TDE_READ_SIZE = 32 (line 16); `tde->read` delivers
the next postings, at most 32. -/
def tscNext (t : Term) : Res (Bool × Term) :=
  let p := t.pointer + 1
  if p ≥ t.buf.length then
    let got := t.tde.take 32
    let t := { t with pointer := p, buf := got, tde := t.tde.drop 32 }
    match got with
    | [] => .ok (false, t)
    | e :: _ => .ok (true, { t with pointer := 0, doc := e.1 })
  else
    match t.buf[p]? with
    | none => .ub
    | some e => .ok (true, { t with pointer := p, doc := e.1 })

/-- `while (++(ts->pointer) < ts->pointer_max) if (docs[pointer] >= doc_num) ...`,
c/src/q_term.c:76-81; `some` when found. -/
def tscScan (buf : List (Int × Nat)) (n : Int) : Nat → Nat → Option Nat × Nat
  | 0, p => (none, p)
  | fuel + 1, p =>
    match buf[p + 1]? with
    | none => (none, p + 1)
    | some e => if e.1 ≥ n then (some (p + 1), p + 1) else tscScan buf n fuel (p + 1)

/-- `tsc_skip_to`, c/src/q_term.c:70-94. `tde->skip_to` steps at least once and until the
document is at or past the target. -/
def tscSkipTo (t : Term) (n : Int) : Res (Bool × Term) :=
  match tscScan t.buf n (t.buf.length + 1) t.pointer with
  | (some p, _) =>
    match t.buf[p]? with
    | none => .ub
    | some e => .ok (true, { t with pointer := p, doc := e.1 })
  | (none, p) =>
    match t.tde.dropWhile (fun e => e.1 < n) with
    | [] => .ok (false, { t with pointer := p, tde := [] })
    | e :: rest => .ok (true, { buf := [e], pointer := 0, tde := rest, doc := e.1 })

/-- `tsc_score`, c/src/q_term.c:32-48, with `score_cache` (126-129) of SCORE_CACHE_SIZE = 32
entries. `tfw f` is `sim_tf(f) * weight_value`, `norm d` is the decoded norm of document `d`. -/
def tscScore (A : Arith S) (tfw : Nat → S) (norm : Int → S) (t : Term) : Res (S × Nat × Term) :=
  match t.buf[t.pointer]? with
  | none => .ub
  | some e =>
    if e.2 < 32 then
      match ((List.range 32).map tfw)[e.2]? with
      | none => .ub
      | some v => .ok (A.mul v (norm t.doc), 0, t)
    else .ok (A.mul (tfw e.2) (norm t.doc), 0, t)

/-- A term scorer with its weight. -/
structure TermW (S : Type) where
  t : Term
  tfw : Nat → S
  norm : Int → S

/-- Function pointers set by `tsc_new`, c/src/q_term.c:131-133. -/
def termOps (A : Arith S) : Ops (TermW S) S where
  next w := tscNext w.t >>= fun r => .ok (r.1, { w with t := r.2 })
  skipTo w n := tscSkipTo w.t n >>= fun r => .ok (r.1, { w with t := r.2 })
  score w := tscScore A w.tfw w.norm w.t >>= fun r => .ok (r.1, r.2.1, { w with t := r.2.2 })
  doc w := w.t.doc
  left w := (w.t.buf.drop (w.t.pointer + 1) ++ w.t.tde).length

/-! ### MatchAllScorer -/

/-- `struct MatchAllScorer`, c/src/q_match_all.c:14-20; `deleted` is `ir->is_deleted`. -/
structure MatchAll (S : Type) where
  deleted : Int → Bool
  maxDoc : Nat
  score : S
  doc : Int

/-- The loop of `masc_next`, c/src/q_match_all.c:29-34. -/
def mascLoop (m : MatchAll S) : Nat → Int → Bool × Int
  | 0, d => (false, d)
  | fuel + 1, d =>
    if d < (m.maxDoc : Int) - 1 then
      if !m.deleted (d + 1) then (true, d + 1) else mascLoop m fuel (d + 1)
    else (false, d)

/-- `masc_next`, c/src/q_match_all.c:27-36. -/
def mascNext (m : MatchAll S) : Bool × MatchAll S :=
  let r := mascLoop m ((m.maxDoc - 1 - m.doc).toNat + 1) m.doc
  (r.1, { m with doc := r.2 })

/-- `masc_new` (48-64), `masc_skip_to` (38-42), `masc_score` (22-25) of
c/src/q_match_all.c. -/
def matchAllOps : Ops (MatchAll S) S where
  next m := .ok (mascNext m)
  skipTo m n := .ok (mascNext { m with doc := n - 1 })
  score m := .ok (m.score, 0, m)
  doc m := m.doc
  left m := (m.maxDoc - 1 - m.doc).toNat

/-! ### SingleMatchScorer -/

/-- `struct SingleMatchScorer`, c/src/q_boolean.c:471-476. -/
structure Single (σ : Type) where
  sub : σ
  doc : Int

/-- `smsc_next`, `smsc_skip_to`, `smsc_score`, c/src/q_boolean.c:479-503. -/
def singleOps (o : Ops σ S) : Ops (Single σ) S where
  next s := o.next s.sub >>= fun r =>
    .ok (r.1, if r.1 then ⟨r.2, o.doc r.2⟩ else ⟨r.2, s.doc⟩)
  skipTo s n := o.skipTo s.sub n >>= fun r =>
    .ok (r.1, if r.1 then ⟨r.2, o.doc r.2⟩ else ⟨r.2, s.doc⟩)
  score s := o.score s.sub >>= fun r => .ok (r.1, 1, ⟨r.2.2, s.doc⟩)
  doc s := s.doc
  left s := o.left s.sub

/-! ### DisjunctionSumScorer -/

/-- `struct DisjunctionSumScorer`, c/src/q_boolean.c:53-63. The sub-scorers are held by the
queue once it exists. `counting` tells `cdssc_score` from `dssc_score`. -/
structure Dis (σ S : Type) where
  doc : Int
  cum : S
  num : Nat
  min : Nat
  subs : List σ
  queue : Option (PQ.PQ σ)
  counting : Bool

/-- `disjunction_sum_scorer_new`, `counting_disjunction_sum_scorer_new`,
c/src/q_boolean.c:208-261 (both uses pass `min_num_matches = 1`); `cum_score` and
`num_matches` start as -1, which is never read. -/
def Dis.new (A : Arith S) (subs : List σ) (min : Nat) (counting : Bool) : Dis σ S :=
  { doc := -1, cum := A.zero, num := 0, min := min, subs := subs, queue := none, counting := counting }

/-- `scorer_doc_less_than`, c/src/search.c:493-496. -/
def docLt (o : Ops σ S) (a b : σ) : Bool := decide (o.doc a < o.doc b)

/-- `dssc_init_scorer_queue`, c/src/q_boolean.c:70-83. -/
def disInit (o : Ops σ S) : List σ → PQ.PQ σ → Res (PQ.PQ σ)
  | [], q => .ok q
  | s :: ss, q =>
    o.next s >>= fun r =>
      if r.1 then PQ.insert (docLt o) q r.2 >>= fun i => disInit o ss i.1
      else disInit o ss q

/-- Replace the state of the scorer at the top of the queue (it is mutated in place). -/
def setTop (q : PQ.PQ σ) (s : σ) : PQ.PQ σ := { q with heap := q.heap.set 0 s }

/-- How the inner loop of `dssc_advance_after_current` ends: `return false`, or `break` with
`self->num_matches`, `self->cum_score` and the queue. -/
inductive Inner (σ S : Type) where
  | fail (q : PQ.PQ σ) (cum : S) (num : Nat)
  | brk (q : PQ.PQ σ) (cum : S) (num : Nat)

/-- After the queue changed: compare the top with `self->doc`, c/src/q_boolean.c:114-122.
`none` is `break`, otherwise the top has been scored. -/
def disTop (A : Arith S) (o : Ops σ S) (doc : Int) (q : PQ.PQ σ) (cum : S) (num : Nat) :
    Res (Option (PQ.PQ σ × S × Nat)) :=
  match PQ.top q with
  | none => .ub
  | some t =>
    if o.doc t ≠ doc then .ok none
    else o.score t >>= fun r => .ok (some (setTop q r.2.2, A.add cum r.1, num + 1))

/-- The inner `while (true)`, c/src/q_boolean.c:97-123. -/
def disInner (A : Arith S) (o : Ops σ S) (min : Nat) (doc : Int) :
    Nat → PQ.PQ σ → S → Nat → Res (Inner σ S)
  | 0, _, _, _ => .ub
  | fuel + 1, q, cum, num =>
    match PQ.top q with
    | none => .ub
    | some t =>
      o.next t >>= fun r =>
      if r.1 then
        PQ.down (docLt o) (setTop q r.2).heap >>= fun h =>
        disTop A o doc { q with heap := h } cum num >>= fun x =>
        match x with
        | none => .ok (.brk { q with heap := h } cum num)
        | some y => disInner A o min doc fuel y.1 y.2.1 y.2.2
      else
        PQ.pop (docLt o) (setTop q r.2) >>= fun p =>
        if p.2.heap.length + num < min then .ok (.fail p.2 cum num)
        else if p.2.heap.length = 0 then .ok (.brk p.2 cum num)
        else
          disTop A o doc p.2 cum num >>= fun x =>
          match x with
          | none => .ok (.brk p.2 cum num)
          | some y => disInner A o min doc fuel y.1 y.2.1 y.2.2

/-- Fuel for the loops over a queue. -/
def qLeft (o : Ops σ S) (h : List σ) : Nat := (h.map (fun s => o.left s + 1)).sum

/-- The outer loop of `dssc_advance_after_current`, c/src/q_boolean.c:85-132. -/
def disAdvance (A : Arith S) (o : Ops σ S) : Nat → Dis σ S → PQ.PQ σ → Res (Bool × Dis σ S)
  | 0, _, _ => .ub
  | fuel + 1, d, q =>
    match PQ.top q with
    | none => .ub
    | some t =>
      o.score t >>= fun r =>
      disInner A o d.min (o.doc t) (qLeft o q.heap + 1) (setTop q r.2.2) r.1 1 >>= fun x =>
      match x with
      | .fail q' cum num =>
        .ok (false, { d with doc := o.doc t, cum := cum, num := num, queue := some q' })
      | .brk q' cum num =>
        let d' := { d with doc := o.doc t, cum := cum, num := num, queue := some q' }
        if num ≥ d.min then .ok (true, d')
        else if q'.heap.length < d.min then .ok (false, d')
        else disAdvance A o fuel d' q'

/-- The queue, created when absent, c/src/q_boolean.c:136-138, 153-156. -/
def disQueue (o : Ops σ S) (d : Dis σ S) : Res (PQ.PQ σ) :=
  match d.queue with
  | some q => .ok q
  | none => disInit o d.subs (PQ.new d.subs.length)

/-- `dssc_next`, c/src/q_boolean.c:134-146. -/
def disNext (A : Arith S) (o : Ops σ S) (d : Dis σ S) : Res (Bool × Dis σ S) :=
  disQueue o d >>= fun q =>
  if q.heap.length < d.min then .ok (false, { d with queue := some q })
  else disAdvance A o (qLeft o q.heap + 1) d q

/-- The loop of `dssc_skip_to`, c/src/q_boolean.c:164-178. -/
def disSkipLoop (A : Arith S) (o : Ops σ S) (n : Int) : Nat → Dis σ S → PQ.PQ σ → Res (Bool × Dis σ S)
  | 0, _, _ => .ub
  | fuel + 1, d, q =>
    match PQ.top q with
    | none => .ub
    | some t =>
      if o.doc t ≥ n then disAdvance A o (qLeft o q.heap + 1) d q
      else
        o.skipTo t n >>= fun r =>
        if r.1 then
          PQ.down (docLt o) (setTop q r.2).heap >>= fun h =>
          disSkipLoop A o n fuel d { q with heap := h }
        else
          PQ.pop (docLt o) (setTop q r.2) >>= fun p =>
          if p.2.heap.length < d.min then .ok (false, { d with queue := some p.2 })
          else disSkipLoop A o n fuel d p.2

/-- `dssc_skip_to`, c/src/q_boolean.c:148-179. -/
def disSkipTo (A : Arith S) (o : Ops σ S) (d : Dis σ S) (n : Int) : Res (Bool × Dis σ S) :=
  disQueue o d >>= fun q =>
  if q.heap.length < d.min then .ok (false, { d with queue := some q })
  else
    let n := if n ≤ d.doc then d.doc + 1 else n
    disSkipLoop A o n (qLeft o q.heap + 1) d q

/-- Function pointers of the disjunction scorers; `dssc_score` (65-68) and `cdssc_score`
(246-250). -/
def disOps (A : Arith S) (o : Ops σ S) : Ops (Dis σ S) S where
  next := disNext A o
  skipTo := disSkipTo A o
  score d := .ok (d.cum, if d.counting then d.num else 0, d)
  doc d := d.doc
  left d := match d.queue with
    | none => (d.subs.map o.left).sum
    | some q => qLeft o q.heap

/-! ### ConjunctionScorer -/

/-- `struct ConjunctionScorer`, c/src/q_boolean.c:269-280 (`coord` is computed in `conInit`
and read in `conScore`, it is always `dcoord n n`). -/
structure Con (σ : Type) where
  doc : Int
  firstTime : Bool
  more : Bool
  subs : List σ
  firstIdx : Nat
  lastScored : Int

/-- `counting_conjunction_sum_scorer_new`, c/src/q_boolean.c:449-463, 420-434. -/
def Con.new (subs : List σ) : Con σ :=
  { doc := 0, firstTime := true, more := true, subs := subs, firstIdx := 0, lastScored := -1 }

/-- The loop of `csc_sort_scorers`, c/src/q_boolean.c:286-295: `done` are the scorers before
`i` in order, `prev` is `previous`. The flag is false on the early return. -/
def conSort (o : Ops σ S) : List σ → σ → List σ → Res (Bool × List σ)
  | done, prev, [] => .ok (true, done ++ [prev])
  | done, prev, cur :: rest =>
    if o.doc prev > o.doc cur then
      o.skipTo cur (o.doc prev) >>= fun r =>
      if r.1 then conSort o (done ++ [prev]) r.2 rest
      else .ok (false, done ++ [prev] ++ r.2 :: rest)
    else conSort o (done ++ [prev]) cur rest

/-- `csc_sort_scorers`, c/src/q_boolean.c:282-298. -/
def conSortScorers (o : Ops σ S) (c : Con σ) : Res (Con σ) :=
  match c.subs with
  | [] => .ub
  | s :: ss =>
    conSort o [] s ss >>= fun r =>
    if r.1 then .ok { c with subs := r.2, firstIdx := 0 }
    else .ok { c with subs := r.2, more := false }

/-- Apply `f` to the scorers in order until one reports false (the loops at
c/src/q_boolean.c:313-319 and 390-398). -/
def conAll (f : σ → Res (Bool × σ)) : List σ → Res (Bool × List σ)
  | [] => .ok (true, [])
  | s :: ss =>
    f s >>= fun r =>
    if r.1 then conAll f ss >>= fun t => .ok (t.1, r.2 :: t.2)
    else .ok (false, r.2 :: ss)

/-- `csc_init(self, true)`, c/src/q_boolean.c:300-326. -/
def conInit (o : Ops σ S) (c : Con σ) : Res (Con σ) :=
  if c.subs.length > 0 then
    conAll o.next c.subs >>= fun r =>
    if r.1 then
      conSortScorers o { c with subs := r.2, more := true } >>= fun c => .ok { c with firstTime := false }
    else .ok { c with subs := r.2, more := false, firstTime := false }
  else .ok { c with more := false, firstTime := false }

/-- The loop of `csc_do_next`, c/src/q_boolean.c:351-358. -/
def conLoop (o : Ops σ S) : Nat → Con σ → Res (Con σ)
  | 0, _ => .ub
  | fuel + 1, c =>
    match c.subs[c.firstIdx]?, c.subs[(c.firstIdx + c.subs.length - 1) % c.subs.length]? with
    | some f, some l =>
      if c.more ∧ o.doc f < o.doc l then
        o.skipTo f (o.doc l) >>= fun r =>
        conLoop o fuel { c with subs := c.subs.set c.firstIdx r.2, more := r.1,
                                firstIdx := (c.firstIdx + 1) % c.subs.length }
      else .ok { c with doc := o.doc f }
    | _, _ => .ub

/-- `csc_do_next`, c/src/q_boolean.c:342-362. -/
def conDoNext (o : Ops σ S) (c : Con σ) : Res (Bool × Con σ) :=
  conLoop o ((c.subs.map o.left).sum + 2) c >>= fun c => .ok (c.more, c)

/-- `csc_next`, c/src/q_boolean.c:364-377. -/
def conNext (o : Ops σ S) (c : Con σ) : Res (Bool × Con σ) :=
  if c.firstTime then conInit o c >>= conDoNext o
  else if c.more then
    let i := (c.firstIdx + c.subs.length - 1) % c.subs.length
    match c.subs[i]? with
    | none => .ub
    | some s => o.next s >>= fun r => conDoNext o { c with subs := c.subs.set i r.2, more := r.1 }
  else conDoNext o c

/-- `csc_skip_to`, c/src/q_boolean.c:379-406. Line 404 overwrites the `more` that
`csc_sort_scorers` may have cleared. -/
def conSkipTo (o : Ops σ S) (c : Con σ) (n : Int) : Res (Bool × Con σ) :=
  let more := c.more
  let c := if c.firstTime then { c with more := decide (c.subs.length > 0), firstTime := false } else c
  if more then
    conAll (fun s => o.skipTo s n) c.subs >>= fun r =>
    if r.1 then
      conSortScorers o { c with subs := r.2 } >>= fun c => conDoNext o { c with more := true }
    else conDoNext o { c with subs := r.2, more := false }
  else conDoNext o { c with more := false }

/-- The summing loop of `csc_score`, c/src/q_boolean.c:334-337. -/
def conSum (A : Arith S) (o : Ops σ S) : List σ → S → Res (S × List σ)
  | [], acc => .ok (acc, [])
  | s :: ss, acc =>
    o.score s >>= fun r => conSum A o ss (A.add acc r.1) >>= fun t => .ok (t.1, r.2.2 :: t.2)

/-- `ccsc_score` with `csc_score`, c/src/q_boolean.c:328-340, 436-447. -/
def conScore (A : Arith S) (o : Ops σ S) (c : Con σ) : Res (S × Nat × Con σ) :=
  let n := c.subs.length
  let cnt := if c.doc > c.lastScored then n else 0
  let last := if c.doc > c.lastScored then c.doc else c.lastScored
  conSum A o c.subs A.zero >>= fun r =>
    .ok (A.mul r.1 (A.dcoord n n), cnt, { c with subs := r.2, lastScored := last })

/-- Function pointers of the counting conjunction scorer. -/
def conOps (A : Arith S) (o : Ops σ S) : Ops (Con σ) S where
  next := conNext o
  skipTo := conSkipTo o
  score := conScore A o
  doc c := c.doc
  left c := (c.subs.map o.left).sum

/-! ### ReqOptSumScorer -/

/-- `struct ReqOptSumScorer`, c/src/q_boolean.c:539-545. -/
structure ReqOpt (ρ ε : Type) where
  req : ρ
  opt : Option ε
  firstTimeOpt : Bool
  doc : Int

/-- The last statement of `rossc_score`, c/src/q_boolean.c:571-573. -/
def roAdd (A : Arith S) (p : Ops ε S) (cur : Int) (s : S) (cnt : Nat) (opt : ε) : Res (S × Nat × ε) :=
  if p.doc opt = cur then p.score opt >>= fun r => .ok (A.add s r.1, cnt + r.2.1, r.2.2)
  else .ok (s, cnt, opt)

/-- `rossc_score`, c/src/q_boolean.c:547-574. -/
def roScore (A : Arith S) (o : Ops ρ S) (p : Ops ε S) (x : ReqOpt ρ ε) : Res (S × Nat × ReqOpt ρ ε) :=
  let cur := o.doc x.req
  o.score x.req >>= fun r =>
  let x := { x with req := r.2.2 }
  if x.firstTimeOpt then
    match x.opt with
    | none => .ub
    | some opt =>
      p.skipTo opt cur >>= fun k =>
      if k.1 then
        roAdd A p cur r.1 r.2.1 k.2 >>= fun t =>
          .ok (t.1, t.2.1, { x with opt := some t.2.2, firstTimeOpt := false })
      else .ok (r.1, r.2.1, { x with opt := none, firstTimeOpt := false })
  else
    match x.opt with
    | none => .ok (r.1, r.2.1, x)
    | some opt =>
      if p.doc opt < cur then
        p.skipTo opt cur >>= fun k =>
        if k.1 then
          roAdd A p cur r.1 r.2.1 k.2 >>= fun t => .ok (t.1, t.2.1, { x with opt := some t.2.2 })
        else .ok (r.1, r.2.1, { x with opt := none })
      else
        roAdd A p cur r.1 r.2.1 opt >>= fun t => .ok (t.1, t.2.1, { x with opt := some t.2.2 })

/-- `rossc_next`, `rossc_skip_to`, c/src/q_boolean.c:576-594. -/
def reqOptOps (A : Arith S) (o : Ops ρ S) (p : Ops ε S) : Ops (ReqOpt ρ ε) S where
  next x := o.next x.req >>= fun r =>
    .ok (r.1, if r.1 then { x with req := r.2, doc := o.doc r.2 } else { x with req := r.2 })
  skipTo x n := o.skipTo x.req n >>= fun r =>
    .ok (r.1, if r.1 then { x with req := r.2, doc := o.doc r.2 } else { x with req := r.2 })
  score := roScore A o p
  doc x := x.doc
  left x := o.left x.req

/-! ### ReqExclScorer -/

/-- `struct ReqExclScorer`, c/src/q_boolean.c:642-648. -/
structure ReqExcl (ρ ε : Type) where
  req : Option ρ
  excl : Option ε
  firstTime : Bool
  doc : Int

/-- `rxsc_to_non_excluded`, c/src/q_boolean.c:650-681. `ed` is the local `excl_doc`. -/
def rxLoop (o : Ops ρ S) (p : Ops ε S) : Nat → ρ → ε → Int → ReqExcl ρ ε → Res (Bool × ReqExcl ρ ε)
  | 0, _, _, _, _ => .ub
  | fuel + 1, req, excl, ed, x =>
    let rd := o.doc req
    if rd < ed then .ok (true, { x with req := some req, excl := some excl, doc := rd })
    else
      let again (excl : ε) (ed : Int) : Res (Bool × ReqExcl ρ ε) :=
        o.next req >>= fun r =>
        if r.1 then rxLoop o p fuel r.2 excl ed x
        else .ok (false, { x with req := none, excl := some excl })
      if rd > ed then
        p.skipTo excl rd >>= fun k =>
        if k.1 then
          if p.doc k.2 > rd then .ok (true, { x with req := some req, excl := some k.2, doc := rd })
          else again k.2 (p.doc k.2)
        else .ok (true, { x with req := some req, excl := none, doc := rd })
      else again excl ed

/-- `rxsc_next` after the first-time step, c/src/q_boolean.c:697-710. -/
def rxNext' (o : Ops ρ S) (p : Ops ε S) (x : ReqExcl ρ ε) : Res (Bool × ReqExcl ρ ε) :=
  match x.req with
  | none => .ok (false, x)
  | some req =>
    o.next req >>= fun r =>
    if !r.1 then .ok (false, { x with req := none })
    else
      match x.excl with
      | none => .ok (true, { x with req := some r.2, doc := o.doc r.2 })
      | some e => rxLoop o p (o.left r.2 + 1) r.2 e (p.doc e) x

/-- The first-time step with the given move of the excluded scorer, c/src/q_boolean.c:689-696
and 719-726. -/
def rxFirst (f : ε → Res (Bool × ε)) (x : ReqExcl ρ ε) : Res (ReqExcl ρ ε) :=
  if x.firstTime then
    match x.excl with
    | none => .ub
    | some e => f e >>= fun r =>
      .ok { x with excl := if r.1 then some r.2 else none, firstTime := false }
  else .ok x

/-- `rxsc_skip_to` after the first-time step, c/src/q_boolean.c:727-741. -/
def rxSkip' (o : Ops ρ S) (p : Ops ε S) (x : ReqExcl ρ ε) (n : Int) : Res (Bool × ReqExcl ρ ε) :=
  match x.req with
  | none => .ok (false, x)
  | some req =>
    o.skipTo req n >>= fun r =>
    match x.excl with
    | none =>
      if r.1 then .ok (true, { x with req := some r.2, doc := o.doc r.2 })
      else .ok (false, { x with req := some r.2 })
    | some e =>
      if !r.1 then .ok (false, { x with req := none })
      else rxLoop o p (o.left r.2 + 1) r.2 e (p.doc e) x

/-- `rxsc_next` (683-711), `rxsc_skip_to` (713-742), `rxsc_score` (744-748) of
c/src/q_boolean.c. -/
def reqExclOps (o : Ops ρ S) (p : Ops ε S) : Ops (ReqExcl ρ ε) S where
  next x := rxFirst p.next x >>= rxNext' o p
  skipTo x n := rxFirst (fun e => p.skipTo e n) x >>= fun x => rxSkip' o p x n
  score x := match x.req with
    | none => .ub
    | some req => o.score req >>= fun r => .ok (r.1, r.2.1, { x with req := some r.2.2 })
  doc x := x.doc
  left x := match x.req with
    | none => 0
    | some r => o.left r

/-! ### NonMatchScorer and BooleanScorer -/

/-- `nmsc_next`, `nmsc_skip_to`, `nmsc_score`, c/src/q_boolean.c:800-833. -/
def nonMatchOps (A : Arith S) : Ops Unit S where
  next _ := .ok (false, ())
  skipTo _ _ := .ok (false, ())
  score _ := .ok (A.zero, 0, ())
  doc _ := 0
  left _ := 0

/-- The scorer for the required part: single, disjunction or conjunction. -/
abbrev Req (σ S : Type) := Single σ ⊕ (Dis σ S ⊕ Con σ)
/-- The excluded scorer: the only prohibited one, or the disjunction of all. -/
abbrev Excl (σ S : Type) := σ ⊕ Dis σ S
/-- The optional scorer: single or disjunction. -/
abbrev Opt (σ S : Type) := Single σ ⊕ Dis σ S
/-- Required scorer, possibly with exclusions. -/
abbrev ReqX (σ S : Type) := Req σ S ⊕ ReqExcl (Req σ S) (Excl σ S)
/-- The `counting_sum_scorer` of a boolean scorer. -/
abbrev Css (σ S : Type) := Unit ⊕ (ReqX σ S ⊕ ReqOpt (ReqX σ S) (Opt σ S))

def reqOps (A : Arith S) (o : Ops σ S) : Ops (Req σ S) S :=
  sumOps (singleOps o) (sumOps (disOps A o) (conOps A o))
def exclOps (A : Arith S) (o : Ops σ S) : Ops (Excl σ S) S := sumOps o (disOps A o)
def optOps (A : Arith S) (o : Ops σ S) : Ops (Opt σ S) S := sumOps (singleOps o) (disOps A o)
def reqXOps (A : Arith S) (o : Ops σ S) : Ops (ReqX σ S) S :=
  sumOps (reqOps A o) (reqExclOps (reqOps A o) (exclOps A o))
def cssOps (A : Arith S) (o : Ops σ S) : Ops (Css σ S) S :=
  sumOps (nonMatchOps A) (sumOps (reqXOps A o) (reqOptOps A (reqXOps A o) (optOps A o)))

/-- `struct BooleanScorer`, c/src/q_boolean.c:840-854; `maxCoord` is in its coordinator. -/
structure Bsc (σ S : Type) where
  required : List σ
  optional : List σ
  prohibited : List σ
  css : Option (Css σ S)
  maxCoord : Nat
  doc : Int

/-- Wrap the required scorer with the prohibited ones, c/src/q_boolean.c:860-878, 887-900. -/
def mkReqX (A : Arith S) (prohibited : List σ) (req : Req σ S) : ReqX σ S :=
  match prohibited with
  | [] => .inl req
  | [p] => .inr ⟨some req, some (.inl p), true, 0⟩
  | ps => .inr ⟨some req, some (.inr (Dis.new A ps 1 false)), true, 0⟩

/-- `counting_sum_scorer_create2` with `create3`, c/src/q_boolean.c:856-916. -/
def create2 (A : Arith S) (prohibited : List σ) (req : Req σ S) (optional : List σ) : Css σ S :=
  match optional with
  | [] => .inr (.inl (mkReqX A prohibited req))
  | [s] => .inr (.inr ⟨mkReqX A prohibited req, some (.inl ⟨s, 0⟩), true, 0⟩)
  | ss => .inr (.inr ⟨mkReqX A prohibited req, some (.inr (Dis.new A ss 1 true)), true, 0⟩)

/-- `counting_sum_scorer_create`, c/src/q_boolean.c:918-964. -/
def create (A : Arith S) (b : Bsc σ S) : Css σ S :=
  match b.required with
  | [] =>
    match b.optional with
    | [] => .inl ()
    | [s] => create2 A b.prohibited (.inl ⟨s, 0⟩) []
    | ss => create2 A b.prohibited (.inr (.inl (Dis.new A ss 1 true))) []
  | [r] => create2 A b.prohibited (.inl ⟨r, 0⟩) b.optional
  | rs => create2 A b.prohibited (.inr (.inr (Con.new rs))) b.optional

/-- The counting sum scorer, created on first use, c/src/q_boolean.c:966-970, 1012-1014. -/
def bscCss (A : Arith S) (b : Bsc σ S) : Css σ S :=
  match b.css with
  | some c => c
  | none => create A b

/-- `bsc_next`, `bsc_skip_to`, `bsc_score`, c/src/q_boolean.c:998-1038. Scoring before the
first `next` dereferences NULL; `coord_factors` has `max_coord + 1` entries (34-45). -/
def bscOps (A : Arith S) (o : Ops σ S) : Ops (Bsc σ S) S where
  next b := (cssOps A o).next (bscCss A b) >>= fun r =>
    .ok (r.1, if r.1 then { b with css := some r.2, doc := (cssOps A o).doc r.2 }
              else { b with css := some r.2 })
  skipTo b n := (cssOps A o).skipTo (bscCss A b) n >>= fun r =>
    .ok (r.1, if r.1 then { b with css := some r.2, doc := (cssOps A o).doc r.2 }
              else { b with css := some r.2 })
  score b := match b.css with
    | none => .ub
    | some c => (cssOps A o).score c >>= fun r =>
      if r.2.1 ≤ b.maxCoord then .ok (A.mul r.1 (A.coord r.2.1 b.maxCoord), 0, { b with css := some r.2.2 })
      else .ub
  doc b := b.doc
  left b := (cssOps A o).left (bscCss A b)

/-- `bsc_new`, c/src/q_boolean.c:1077-1089. -/
def Bsc.new : Bsc σ S := ⟨[], [], [], none, 0, 0⟩

/-- `bsc_add_scorer`, c/src/q_boolean.c:972-996. -/
def bscAdd (b : Bsc σ S) (s : σ) : Occur → Bsc σ S
  | .must => { b with required := b.required ++ [s], maxCoord := b.maxCoord + 1 }
  | .should => { b with optional := b.optional ++ [s], maxCoord := b.maxCoord + 1 }
  | .mustNot => { b with prohibited := b.prohibited ++ [s] }

/-- `bw_scorer`, c/src/q_boolean.c:1140-1160: `none` is NULL. -/
def bwScorer : List (Occur × Option σ) → Bsc σ S → Option (Bsc σ S)
  | [], b => some b
  | (oc, some s) :: cs, b => bwScorer cs (bscAdd b s oc)
  | (.must, none) :: _, _ => none
  | (.should, none) :: cs, b => bwScorer cs b
  | (.mustNot, none) :: cs, b => bwScorer cs b

/-! ### Nested queries -/

/-- States of scorers for boolean queries nested at most `n` deep over leaf scorers `σ`. -/
def Lvl (σ S : Type) : Nat → Type
  | 0 => σ
  | n + 1 => σ ⊕ Bsc (Lvl σ S n) S

/-- Their function pointers. -/
def lvlOps (A : Arith S) (o : Ops σ S) : (n : Nat) → Ops (Lvl σ S n) S
  | 0 => o
  | n + 1 => sumOps o (bscOps A (lvlOps A o n))

end Ferret.Scorer
