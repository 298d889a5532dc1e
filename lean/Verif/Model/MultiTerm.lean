import Verif.Model.Scorer
import Verif.Model.TermDict

/-!
Model of searching with a MultiTermQuery, which prefix, wildcard and fuzzy queries become: c/src/q_multi_term.c 49–473
(TermDocEnumWrapper, MultiTermScorer, multi_tw_scorer, multi_tw_explain).

Simplifications: an enumerator of postings is the list of the postings it has not delivered (that enumerators of segments
and of several segments are that is C22 and C24); scores are of a type `S` with the arithmetic `Arith S`. The wrappers of
`tdew_a` are not used once they are in the queue, so the queue holds them by value. `left` is no part of the code, see
Model/Scorer.lean. Of an explanation only the value is modelled, and the bounds of the text of document frequencies.
-/

namespace Ferret.MTerm
open Ferret.Scorer

variable {S : Type}

/-- TermDocEnumWrapper, q_multi_term.c 55–66: `buf` has the `pointer_max` documents and frequencies read, `tde` what its
enumerator has not delivered. -/
structure Tdew (S : Type) where
  buf : List (Int × Nat)
  pointer : Nat
  tde : List (Int × Nat)
  doc : Int
  freq : Nat
  boost : S

/-- tdew_new, q_multi_term.c 124–133. -/
def tdewNew (postings : List (Int × Nat)) (boost : S) : Tdew S := ⟨[], 0, postings, -1, 0, boost⟩

/-- tdew_less_than, q_multi_term.c 68–72. -/
def tdewLt (a b : Tdew S) : Bool := decide (a.doc < b.doc)

/-- tdew_next, q_multi_term.c 74–91, with TDE_READ_SIZE = 16 (line 53). -/
def tdewNext (t : Tdew S) : Res (Bool × Tdew S) :=
  let p := t.pointer + 1
  if p ≥ t.buf.length then
    let got := t.tde.take 16
    let t := { t with pointer := p, buf := got, tde := t.tde.drop 16 }
    match got with
    | [] => .ok (false, t)
    | e :: _ => .ok (true, { t with pointer := 0, doc := e.1, freq := e.2 })
  else
    match t.buf[p]? with
    | none => .ub
    | some e => .ok (true, { t with pointer := p, doc := e.1, freq := e.2 })

/-- tdew_skip_to, q_multi_term.c 93–116; the loop over the buffer (97–103) is that of tsc_skip_to. -/
def tdewSkipTo (t : Tdew S) (n : Int) : Res (Bool × Tdew S) :=
  match tscScan t.buf n (t.buf.length + 1) t.pointer with
  | (some p, _) =>
    match t.buf[p]? with
    | none => .ub
    | some e => .ok (true, { t with pointer := p, doc := e.1, freq := e.2 })
  | (none, p) =>
    match t.tde.dropWhile (fun e => e.1 < n) with
    | [] => .ok (false, { t with pointer := p, tde := [] })
    | e :: rest => .ok (true, { t with buf := [e], pointer := 0, tde := rest, doc := e.1, freq := e.2 })

/-- MultiTermScorer, q_multi_term.c 142–154: the wrappers, the queue once it is made, the document and its sum; `tf` is
sim_tf, `weight` the value of the weight, `norm` the decoded norm. -/
structure Sc (S : Type) where
  tdews : List (Tdew S)
  q : Option (PQ.PQ (Tdew S))
  doc : Int
  total : S
  tf : Nat → S
  weight : S
  norm : Int → S

/-- multi_tsc_new, q_multi_term.c 298–323 (zeroed memory). -/
def scNew (A : Arith S) (tf : Nat → S) (weight : S) (norm : Int → S) (tdews : List (Tdew S)) : Sc S := ⟨tdews, none, 0, A.zero, tf, weight, norm⟩

/-- multi_tsc_score, q_multi_term.c 156–160. -/
def score (A : Arith S) (s : Sc S) : S := A.mul (A.mul s.total s.weight) (s.norm s.doc)

/-- The factor of a frequency, q_multi_term.c 188–194, with the table of 312–314 (SCORE_CACHE_SIZE = 32). -/
def tfOf (tf : Nat → S) (f : Nat) : Res S := if f < 32 then Res.ofOption ((List.range 32).map tf)[f]? else .ok (tf f)

/-- The top has been moved: pq_down if there is more of it, pq_pop if not; q_multi_term.c 196–201, 230–235. -/
def settle (q : PQ.PQ (Tdew S)) (rest : List (Tdew S)) (r : Bool × Tdew S) : Res (PQ.PQ (Tdew S)) :=
  if r.1 then PQ.down tdewLt (r.2 :: rest) >>= fun h => .ok { q with heap := h }
  else PQ.pop tdewLt { q with heap := r.2 :: rest } >>= fun x => .ok x.2

/-- The loop making the queue in multi_tsc_next, q_multi_term.c 173–177, over the wrappers from the last to the first. -/
def fillNext : List (Tdew S) → PQ.PQ (Tdew S) → Res (PQ.PQ (Tdew S))
  | [], q => .ok q
  | t :: ts, q => tdewNext t >>= fun r => if r.1 then PQ.push tdewLt q r.2 >>= fun q => fillNext ts q else fillNext ts q

/-- The loop making the queue in multi_tsc_advance_to, q_multi_term.c 218–221: whether there was a document is not
looked at. -/
def fillSkip (n : Int) : List (Tdew S) → PQ.PQ (Tdew S) → Res (PQ.PQ (Tdew S))
  | [], q => .ok q
  | t :: ts, q => tdewSkipTo t n >>= fun r => PQ.push tdewLt q r.2 >>= fun q => fillSkip n ts q

/-- What is left in the wrappers, as fuel. -/
def tdewLeft (t : Tdew S) : Nat := (t.buf.drop (t.pointer + 1) ++ t.tde).length + 1
def leftOf (ts : List (Tdew S)) : Nat := (ts.map tdewLeft).sum

/-- The loop of multi_tsc_next, q_multi_term.c 187–204. -/
def sumGo (A : Arith S) (tf : Nat → S) (cur : Int) : Nat → PQ.PQ (Tdew S) → S → Res (S × PQ.PQ (Tdew S))
  | 0, _, _ => .ub
  | fuel + 1, q, acc =>
    match q.heap with
    | [] => .ok (acc, q)
    | t :: rest =>
      if t.doc = cur then
        tfOf tf t.freq >>= fun x => tdewNext t >>= fun r => settle q rest r >>= fun q =>
        sumGo A tf cur fuel q (A.add acc (A.mul x t.boost))
      else .ok (acc, q)

/-- The queue multi_tsc_next works on, made on the first call, q_multi_term.c 166–176. -/
def queueNext (s : Sc S) : Res (PQ.PQ (Tdew S)) :=
  match s.q with
  | some q => .ok q
  | none => fillNext s.tdews.reverse (PQ.new s.tdews.length)

/-- multi_tsc_next, q_multi_term.c 162–207. -/
def next (A : Arith S) (s : Sc S) : Res (Bool × Sc S) :=
  queueNext s >>= fun q =>
  match q.heap with
  | [] => .ok (false, { s with q := some q })
  | t :: _ => sumGo A s.tf t.doc (leftOf q.heap + 1) q A.zero >>= fun r =>
    .ok (true, { s with q := some r.2, doc := t.doc, total := r.1 })

/-- The loop of multi_tsc_advance_to, q_multi_term.c 228–236. -/
def advGo (n : Int) : Nat → PQ.PQ (Tdew S) → Res (PQ.PQ (Tdew S))
  | 0, _ => .ub
  | fuel + 1, q =>
    match q.heap with
    | [] => .ok q
    | t :: rest => if n > t.doc then tdewSkipTo t n >>= fun r => settle q rest r >>= fun q => advGo n fuel q else .ok q

/-- The queue multi_tsc_advance_to works on, made on the first call, q_multi_term.c 214–222. -/
def queueSkip (s : Sc S) (n : Int) : Res (PQ.PQ (Tdew S)) :=
  match s.q with
  | some q => .ok q
  | none => fillSkip n s.tdews.reverse (PQ.new s.tdews.length)

/-- multi_tsc_advance_to, q_multi_term.c 209–238. -/
def advanceTo (s : Sc S) (n : Int) : Res (Bool × Sc S) :=
  queueSkip s n >>= fun q =>
  if q.heap = [] then .ok (false, { s with q := some q, doc := -1 })
  else advGo n (leftOf q.heap + 1) q >>= fun q => .ok (q.heap.length ≠ 0, { s with q := some q })

/-- multi_tsc_skip_to, q_multi_term.c 240–243. -/
def skipTo (A : Arith S) (s : Sc S) (n : Int) : Res (Bool × Sc S) :=
  advanceTo s n >>= fun r => if r.1 then next A r.2 else .ok r

/-- Function pointers set by multi_tsc_new, q_multi_term.c 316–318. -/
def mtOps (A : Arith S) : Ops (Sc S) S where
  next s := next A s
  skipTo s n := skipTo A s n
  score s := .ok (score A s, 0, s)
  doc s := s.doc
  left s := match s.q with
    | some q => leftOf q.heap
    | none => leftOf s.tdews

/-! ### The scorer of a query -/

open Ferret.Expand Ferret.Dict

/-- The loop of multi_tw_scorer, q_multi_term.c 348–357, over the slots of the query's queue from the last to the first,
with the enumerator of the terms of a segment; `docs` are the postings an enumerator gives that is sent (seek_te) to
a term and its info. -/
def lookGo (sfi : SFI) (docs : Expand.Term × TI → List (Int × Nat)) : STE → List (Expand.Term × S) → Res (List (Tdew S))
  | _, [] => .ok []
  | e, bt :: bts =>
    scanTo sfi e bt.1 >>= fun r => lookGo sfi docs r.1 bts >>= fun rest =>
    .ok (match r.2 with
      | some t => if strcmp t bt.1 = 0 then tdewNew (docs (t, r.1.ti)) bt.2 :: rest else rest
      | none => rest)

/-- multi_tw_scorer, q_multi_term.c 334–369, for the reader of a segment (`tis`: its file of terms); `field` is the
number of the field, negative if there is none; `heap` the slots of the query's queue. -/
def mkScorer (A : Arith S) (sfi : SFI) (tis : List Byte) (docs : Expand.Term × TI → List (Int × Nat)) (tf : Nat → S) (weight : S) (norm : Int → S)
    (field : Int) (heap : List (Expand.Term × S)) : Res (Option (Sc S)) :=
  if heap.length > 0 ∧ field ≥ 0 then
    lookGo sfi docs (steSetField sfi (steNew tis) field) heap.reverse >>= fun ts =>
    .ok (if ts.length ≠ 0 then some (scNew A tf weight norm ts) else none)
  else .ok none

/-! ### Explanations -/

/-- The loop of multi_tsc_explain, q_multi_term.c 258–277. -/
def explGo (A : Arith S) (tf : Nat → S) (cur : Int) : Nat → PQ.PQ (Tdew S) → S → Res (S × PQ.PQ (Tdew S))
  | 0, _, _ => .ub
  | fuel + 1, q, acc =>
    match q.heap with
    | [] => .ok (acc, q)
    | t :: rest =>
      if t.doc = cur then
        tdewNext t >>= fun r => settle q rest r >>= fun q => explGo A tf cur fuel q (A.add acc (A.mul (tf t.freq) t.boost))
      else .ok (acc, q)

/-- multi_tsc_explain, q_multi_term.c 245–284: the value. -/
def scExplain (A : Arith S) (s : Sc S) (d : Int) : Res S :=
  advanceTo s d >>= fun r =>
  if r.1 then
    Res.ofOption r.2.q >>= fun q =>
    match q.heap with
    | [] => .ub
    | t :: _ => if t.doc = d then explGo A s.tf t.doc (leftOf q.heap + 1) q A.zero >>= fun x => .ok x.1 else .ok A.zero
  else .ok A.zero

/-- The values multi_tw_explain works with besides the scorer: the boost of the query, idf and qnorm of its weight, and
the norm of the document, 0 where the field has none (q_multi_term.c 452–455). -/
structure Wt (S : Type) where
  boost : S
  idf : S
  qnorm : S

/-- The text of document frequencies, q_multi_term.c 404–416: at least this long (one digit each) when the last two bytes
are taken back, so that at least two bytes must have been written. -/
def freqText (terms : List Expand.Term) : Res Nat :=
  let pos := (terms.map fun t => t.length + 7).sum
  if pos < 2 then .ub else .ok (pos - 2)

/-- multi_tw_explain, q_multi_term.c 371–473: the value; `isOne` is the comparison with 1.0 in line 464. -/
def twExplain (A : Arith S) (isOne : S → Bool) (w : Wt S) (field : Int) (heap : List (Expand.Term × S)) (sc : Res (Option (Sc S))) (fieldNorm : S) (d : Int) : Res S :=
  if field < 0 then .ok A.zero
  else
    freqText (heap.map (·.1)) >>= fun _ => sc >>= fun s =>
    (match s with
      | some s => scExplain A s d
      | none => .ok A.zero) >>= fun tf =>
    let query := A.mul (A.mul w.boost w.idf) w.qnorm
    let fieldValue := A.mul (A.mul tf w.idf) fieldNorm
    .ok (if isOne query then fieldValue else A.mul query fieldValue)

end Ferret.MTerm
