import Verif.Model.PriorityQueue
import Verif.Model.BitVector

/-!
Model of the hit collection in c/src/search.c: `isea_search_w`, `isea_search_unscored_w`,
`msea_search_w`, `msea_search_unscored_w` (unsorted searches).

Simplifications: scores are an abstract type `S` with the C `<` given as a boolean function
(non-NaN floats, so `a == b` is "neither is less"). The scorer is the list of (document,
score) pairs its `next` yields. A post filter is a function giving `none` when the C
`filter_func` returns 0 and otherwise the score after `if (filter_factor < 1.0) score *=
filter_factor`. Field loading and memory release are not modelled. `int` is 32 bits wide.
-/

namespace Ferret.Search

variable {S : Type}

/-- `struct FrtHit`, c/include/search.h. -/
structure Hit (S : Type) where
  doc : Nat
  score : S
  deriving DecidableEq, Repr

/-- `struct FrtTopDocs`, c/include/search.h; built by `td_new`, c/src/search.c:188-196. -/
structure TopDocs (S : Type) where
  totalHits : Nat
  hits : List (Hit S)
  maxScore : S
  deriving DecidableEq, Repr

/-- `hit_lt`, c/src/search.c:91-99. -/
def hitLt (lt : S → S → Bool) (a b : Hit S) : Bool :=
  if !lt a.score b.score && !lt b.score a.score then decide (a.doc > b.doc)
  else lt a.score b.score

/-- `INT_MAX`. -/
def intMax : Int := 2147483647

/-- `sea_check_args`, c/src/search.c:971-982. -/
def checkArgs (num first : Int) : Res Unit :=
  if num ≤ 0 then .raise .arg
  else if first < 0 then .raise .arg
  else .ok ()

/-- `max_size = num_docs + (num_docs == INT_MAX ? 0 : first_doc)`, c/src/search.c:1036. Signed
overflow is undefined. -/
def maxSize (num first : Int) : Res Int :=
  let s := num + (if num = intMax then 0 else first)
  if s > intMax ∨ s < -intMax - 1 then .ub else .ok s

/-- State of the collecting loop: queue, total_hits, max_score. -/
structure Coll (S : Type) where
  hq : PQ.PQ (Hit S)
  total : Nat
  maxScore : S

/-- `!bits || bv_get(bits, scorer->doc)`, c/src/search.c:1079. -/
def passBits (bits : Option BitVector.BV) (doc : Nat) : Res Bool :=
  match bits with
  | none => .ok true
  | some bv => BitVector.get bv (doc : Int)

/-- The post filter and the score adjustment, c/src/search.c:1081-1089. -/
def postFilter (pf : Option (Nat → S → Option S)) (doc : Nat) (score : S) : Option S :=
  match pf with
  | none => some score
  | some f => f doc score

/-- One iteration of `while (scorer->next(scorer))`, c/src/search.c:1078-1093.
`hit_pq_insert` (157-174), `hit_pq_up` (141-155), `hit_pq_down` (101-123) are line by line the
generic queue functions with `hit_lt`. -/
def collect1 (lt : S → S → Bool) (bits : Option BitVector.BV) (pf : Option (Nat → S → Option S))
    (c : Coll S) (h : Hit S) : Res (Coll S) :=
  passBits bits h.doc >>= fun p =>
    if !p then .ok c
    else
      match postFilter pf h.doc h.score with
      | none => .ok c
      | some score =>
        let mx := if lt c.maxScore score then score else c.maxScore
        PQ.insert (hitLt lt) c.hq ⟨h.doc, score⟩ >>= fun r =>
          .ok { hq := r.1, total := c.total + 1, maxScore := mx }

/-- The whole loop. -/
def collect (lt : S → S → Bool) (bits : Option BitVector.BV) (pf : Option (Nat → S → Option S))
    (c : Coll S) : List (Hit S) → Res (Coll S)
  | [] => .ok c
  | h :: hs => collect1 lt bits pf c h >>= fun c' => collect lt bits pf c' hs

/-- `n` calls of `hit_pq_pop` (c/src/search.c:125-139), in call order. Popping an empty queue
would store NULL hits: undefined when they are used. -/
def popN {α : Type} (lt : α → α → Bool) : Nat → PQ.PQ α → Res (List α)
  | 0, _ => .ok []
  | n + 1, q => PQ.pop lt q >>= fun r =>
      match r.1 with
      | none => .ub
      | some h => popN lt n r.2 >>= fun hs => .ok (h :: hs)

/-- The result page, c/src/search.c:1096-1115 (also 1720-1739): `score_docs` is filled from
the last index downwards. -/
def pageBy {α : Type} (lt : α → α → Bool) (hq : PQ.PQ α) (first num : Nat) : Res (List α) :=
  if hq.heap.length > first then
    let n := if hq.heap.length - first < num then hq.heap.length - first else num
    popN lt n hq >>= fun hs => .ok hs.reverse
  else .ok []

/-- The result page of an unsorted search, c/src/search.c:1096-1115, 1720-1739 with `hit_lt`. -/
def page (lt : S → S → Bool) (hq : PQ.PQ (Hit S)) (first num : Nat) : Res (List (Hit S)) := pageBy (hitLt lt) hq first num

/-- `isea_search_w` without sort, c/src/search.c:1027-1116. `scorer = none` models a NULL
scorer, `numDocs` is `ir->num_docs(ir)`. `zero` is the float 0.0. -/
def iseaSearchW (lt : S → S → Bool) (zero : S) (scorer : Option (List (Hit S))) (numDocs : Nat)
    (bits : Option BitVector.BV) (pf : Option (Nat → S → Option S)) (first num : Int) :
    Res (TopDocs S) :=
  maxSize num first >>= fun mx =>
  checkArgs num first >>= fun _ =>
  match scorer with
  | none => .ok ⟨0, [], zero⟩
  | some hits =>
    if numDocs = 0 then .ok ⟨0, [], zero⟩
    else
      collect lt bits pf { hq := PQ.new mx.toNat, total := 0, maxScore := zero } hits >>= fun c =>
      page lt c.hq first.toNat num.toNat >>= fun hs =>
        .ok { totalHits := c.total, hits := hs, maxScore := c.maxScore }

/-- Insertion of a sub-searcher's hits with `hit->doc += start`, c/src/search.c:1705-1712
(`hit_pq_multi_insert`, 176-180). -/
def insertShifted (lt : S → S → Bool) (start : Nat) (hq : PQ.PQ (Hit S)) : List (Hit S) → Res (PQ.PQ (Hit S))
  | [] => .ok hq
  | h :: hs => PQ.insert (hitLt lt) hq ⟨h.doc + start, h.score⟩ >>= fun r => insertShifted lt start r.1 hs

/-- What a sub-searcher contributes: its start offset and the inputs of its `search_w`. -/
structure Sub (S : Type) where
  start : Nat
  scorer : Option (List (Hit S))
  numDocs : Nat
  bits : Option BitVector.BV

/-- The loop over sub-searchers, c/src/search.c:1696-1718. -/
def mseaLoop (lt : S → S → Bool) (zero : S) (pf : Option (Nat → S → Option S)) (mx : Int)
    (c : Coll S) : List (Sub S) → Res (Coll S)
  | [] => .ok c
  | s :: ss =>
    iseaSearchW lt zero s.scorer s.numDocs s.bits pf 0 mx >>= fun td =>
    insertShifted lt s.start c.hq td.hits >>= fun hq =>
      let ms := if td.hits.length > 0 ∧ lt c.maxScore td.maxScore then td.maxScore else c.maxScore
      mseaLoop lt zero pf mx { hq := hq, total := c.total + td.totalHits, maxScore := ms } ss

/-- `msea_search_w` without sort, c/src/search.c:1663-1740. The sub-searchers are index
searchers. -/
def mseaSearchW (lt : S → S → Bool) (zero : S) (subs : List (Sub S)) (pf : Option (Nat → S → Option S))
    (first num : Int) : Res (TopDocs S) :=
  maxSize num first >>= fun mx =>
  checkArgs num first >>= fun _ =>
  mseaLoop lt zero pf mx { hq := PQ.new mx.toNat, total := 0, maxScore := zero } subs >>= fun c =>
  page lt c.hq first.toNat num.toNat >>= fun hs =>
    .ok { totalHits := c.total, hits := hs, maxScore := c.maxScore }

/-- A sub-searcher before the multi-searcher assigns its start: `maxDoc` is its document
count. -/
structure SubIn (S : Type) where
  maxDoc : Nat
  scorer : Option (List (Hit S))
  numDocs : Nat
  bits : Option BitVector.BV

/-- `msea_new`, c/src/search.c:1829-1838: `starts[i]` is the sum of the previous sizes. -/
def mkSubs (start : Nat) : List (SubIn S) → List (Sub S)
  | [] => []
  | s :: ss => { start := start, scorer := s.scorer, numDocs := s.numDocs, bits := s.bits } ::
      mkSubs (start + s.maxDoc) ss

end Ferret.Search
