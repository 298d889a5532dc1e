import Verif.Model.Span
import Verif.Model.BoolQuery

/-!
Model of the scorer of span queries, c/src/q_span.c:185-312 (SpanScorer).

Simplifications.
* The float `freq` is the list of the lengths whose `sim_sloppy_freq` has been added to it, in that order. `freq != 0.0`
  is that the list is not empty: `simdef_sloppy_freq` (c/src/similarity.c) is 1 / (length + 1), above zero.
* `tfw` is `sim_tf(freq) * value` as a function of that list, `norm` the decoded norm of a document.
* The field exists (otherwise `spansc_new` returns NULL).
* `left` is not in the C code: the number of moves still possible, used only as fuel of the loops outside.
* `explain` and `destroy` are not modelled.
-/

namespace Ferret.Span

open Ferret.Scorer (Arith)
open Ferret.Post (Posting)

variable {σ S T L M : Type}

/-- `SpanScorer`, c/src/q_span.c:191-203. -/
structure SpanSc (σ S : Type) where
  spans : σ
  freq : List Int
  firstTime : Bool
  more : Bool
  doc : Int
  tfw : List Int → S
  norm : Int → S

/-- `spansc_new`, c/src/q_span.c:288-312; `scorer_new` leaves the document 0. -/
def SpanSc.new (s : σ) (tfw : List Int → S) (norm : Int → S) : SpanSc σ S := ⟨s, [], true, true, 0, tfw, norm⟩

/-- `spansc_score`, c/src/q_span.c:205-212. -/
def spanScore (A : Arith S) (x : SpanSc σ S) : S := A.mul (x.tfw x.freq) (x.norm x.doc)

/-- The `do ... while` loop of `spansc_next`, c/src/q_span.c:232-236: `more`, `freq` and the spans after it. -/
def spanTake (o : Ops σ) (doc : Int) : Nat → σ → List Int → Res (Bool × List Int × σ)
  | 0, _, _ => .ub
  | fuel + 1, s, f => o.cur s >>= fun x => o.next s >>= fun r =>
    if r.1 then o.cur r.2 >>= fun y =>
      if doc = y.doc then spanTake o doc fuel r.2 (f ++ [x.stop - x.start]) else .ok (true, f ++ [x.stop - x.start], r.2)
    else .ok (false, f ++ [x.stop - x.start], r.2)

/-- `if (spansc->first_time) ...`, c/src/q_span.c:220-223. -/
def spanFirst (o : Ops σ) (x : SpanSc σ S) : Res (SpanSc σ S) :=
  if x.firstTime then o.next x.spans >>= fun r => .ok { x with spans := r.2, more := r.1, firstTime := false } else .ok x

/-- `spansc_next` from line 225 on, c/src/q_span.c:225-238. -/
def spanAll (o : Ops σ) (x : SpanSc σ S) : Res (Bool × SpanSc σ S) :=
  if x.more then o.cur x.spans >>= fun y => spanTake o y.doc (o.left x.spans + 1) x.spans [] >>= fun r =>
    .ok (r.1 || !r.2.1.isEmpty, { x with spans := r.2.2, freq := r.2.1, more := r.1, doc := y.doc })
  else .ok (false, x)

/-- `spansc_next`, c/src/q_span.c:214-239. -/
def spanNext (o : Ops σ) (x : SpanSc σ S) : Res (Bool × SpanSc σ S) := spanFirst o x >>= spanAll o

/-- The loop of `spansc_skip_to`, c/src/q_span.c:254-260. -/
def spanSkip (o : Ops σ) (target : Int) : Nat → SpanSc σ S → Res (SpanSc σ S)
  | 0, _ => .ub
  | fuel + 1, x =>
    if x.more then o.cur x.spans >>= fun y =>
      if y.doc = target then o.next x.spans >>= fun r =>
        spanSkip o target fuel { x with freq := x.freq ++ [y.stop - y.start], more := r.1, firstTime := false, spans := r.2 }
      else .ok x
    else .ok x

/-- `spansc_skip_to`, c/src/q_span.c:241-263. -/
def spanSkipTo (o : Ops σ) (x : SpanSc σ S) (target : Int) : Res (Bool × SpanSc σ S) :=
  o.skipTo x.spans target >>= fun r =>
  if r.1 then o.cur r.2 >>= fun y =>
    spanSkip o target (o.left r.2 + 2) { x with spans := r.2, more := true, freq := [], doc := y.doc } >>= fun x =>
    .ok (x.more || !x.freq.isEmpty, x)
  else .ok (false, { x with spans := r.2, more := false })

/-- How many spans an enumerator has ahead (not in the C code). -/
def ahead (o : Ops σ) (s : σ) : Nat :=
  match collect o (o.left s + 1) s with
  | .ok l => l.length
  | _ => 0

/-- The function pointers of the scorer. -/
def spanOps (A : Arith S) (o : Ops σ) : Scorer.Ops (SpanSc σ S) S where
  next := spanNext o
  skipTo := spanSkipTo o
  score x := .ok (spanScore A x, 0, x)
  doc x := x.doc
  left x := if x.firstTime then ahead o x.spans + 1 else if x.more then ahead o x.spans + 1 else 0

/-- The scorer of a span query, c/src/q_span.c:288-312. -/
def spanScorer (ix : T → List Posting) (tfw : List Int → S) (norm : Int → S) (q : SpanQ T) : Res (SpanSc (Lvl q.depth) S) :=
  getSpans ix q.depth q >>= fun s => .ok (SpanSc.new s tfw norm)

/-- `isea_search_each_w`, c/src/search.c:1132-1177, for a span query: the documents and scores passed to the callback. -/
def spanSearch (A : Arith S) (ix : T → List Posting) (tfw : List Int → S) (norm : Int → S) (q : SpanQ T) : Res (List (Int × S)) :=
  spanScorer ix tfw norm q >>= fun x => Scorer.drain (spanOps A (lvlOps q.depth)) ((spanOps A (lvlOps q.depth)).left x + 1) x

/-- Term scorers and scorers of span queries (nested at most `n` deep) behind the same function pointers. -/
def mixedOps (A : Arith S) (n : Nat) : Scorer.Ops (Scorer.TermW S ⊕ SpanSc (Lvl n) S) S := Scorer.sumOps (Scorer.termOps A) (spanOps A (lvlOps n))

/-- A reader for boolean queries over terms and the span queries `sq`; `pos t` are the postings with positions. A span
query whose enumerator cannot be made (`get_spans` undefined) gets no scorer here. -/
def mixedEnv (ix : Scorer.TermIx S L) (pos : T → List Posting) (n : Nat) (sq : M → SpanQ T) (tfw : M → List Int → S) (norm : Int → S) :
    Scorer.Env (Scorer.TermW S ⊕ SpanSc (Lvl n) S) S (L ⊕ M) where
  mkLeaf
    | .inl l => (ix.env.mkLeaf l).map .inl
    | .inr m => match getSpans pos n (sq m) with
      | .ok s => some (.inr (SpanSc.new s (tfw m) norm))
      | _ => none
  deleted := ix.deleted
  maxDoc := ix.maxDoc
  allScore := ix.allScore

end Ferret.Span
