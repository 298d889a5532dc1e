import Verif.Model.Span
import Verif.Model.MatchVector

/-!
Highlighting with span queries, c/src/q_span.c:37-61 and 151-182 (`mv_to_term_mv`, `spanq_get_matchv_i`), and the
`get_terms` functions of the span queries (1555-1560, 1644-1653, 1736-1740, 1848-1860, 2032-2044, 2202-2205).

Simplifications.
* A term vector is the positions of each term, if it is in the vector (`tv_get_tv_term`, c/src/term_vectors.c). The term
  vector has positions.
* A hash set of terms is the list of its members in the order they were added, the order in which C06 proves a set is
  gone through.
* `qsort` in `matchv_compact` is any function `sort`.
* The one-document reader that stands in for an index is where the span enumerators get their positions from
  (`Span.Src.vector`).
-/

namespace Ferret.Span

open Ferret.MV (MR MV mvNew mvAdd compact)

variable {T : Type} [DecidableEq T]

/-- `hs_add`: a member is added once. -/
def addTerm (l : List T) (t : T) : List T := if t ∈ l then l else l ++ [t]

/-- `hs_merge`: all members of the second set are added to the first. -/
def mergeTerms (l l' : List T) : List T := l'.foldl addTerm l

mutual
/-- `get_terms`, c/src/q_span.c:1555-1560, 1644-1653, 1736-1740, 1848-1860, 2032-2044, 2202-2205. -/
def getTerms : SpanQ T → List T
  | .term t => addTerm [] t
  | .multi ts => ts.foldl addTerm []
  | .first q _ => getTerms q
  | .or qs | .near qs _ _ => allTerms [] qs
  | .not a _ => getTerms a

/-- The loops over the clauses, c/src/q_span.c:1853-1857 and 2037-2041. -/
def allTerms : List T → List (SpanQ T) → List T
  | l, [] => l
  | l, q :: qs => allTerms (mergeTerms l (getTerms q)) qs
end

/-- The loop c/src/q_span.c:48-55 for the position `pos`, `n` more ranges from `i` on: the index at the end, and whether
the position is in a range. -/
def advance (full : MV) (pos : Int) : Nat → Nat → Res (Nat × Bool)
  | 0, i => .ok (i, false)
  | n + 1, i => Res.ofOption full.matches_[i]? >>= fun m =>
    if pos ≤ m.stop then .ok (i, decide (pos ≥ m.start)) else advance full pos n (i + 1)

/-- The loop c/src/q_span.c:46-56 over the positions of a term. -/
def markTerm (full : MV) : List Int → Nat → MV → Res MV
  | [], _, mv => .ok mv
  | p :: ps, i, mv => advance full p (full.size - i) i >>= fun r => markTerm full ps r.1 (if r.2 then mvAdd mv p p else mv)

/-- `mv_to_term_mv`, c/src/q_span.c:37-61. -/
def mvToTermMv (full : MV) (tv : T → Option (List Int)) : List T → MV → Res MV
  | [], mv => .ok mv
  | t :: ts, mv =>
    match tv t with
    | none => mvToTermMv full tv ts mv
    | some ps => markTerm full ps 0 mv >>= fun mv => mvToTermMv full tv ts mv

/-- `spanq_get_matchv_i`, c/src/q_span.c:151-182; `same`: the query is about the field of the term vector. -/
def spanMatchv (sort : List MR → List MR) (same : Bool) (tv : T → Option (List Int)) (q : SpanQ T) (mv : MV) : Res MV :=
  if same then
    spansFrom (.vector tv) q >>= fun L =>
    let full := L.foldl (fun m x => mvAdd m x.start (x.stop - 1)) mvNew
    compact { full with matches_ := sort full.matches_ } >>= fun full =>
    mvToTermMv full tv (getTerms q) mv
  else .ok mv

/-! ### Any of several terms, in a term vector -/

/-- `tpew_next`, c/src/q_span.c:471-480, with the enumerator of a term vector: `next` is not reached, since the positions
are not negative. -/
def tvTpewNext (t : TvTde) : Res (Int × TvTde) := tvNextPosition t

/-- Calls of `tpew_next`, one after the other. -/
def tvTpewRun : Nat → TvTde → Res (List Int)
  | 0, _ => .ok []
  | n + 1, t => tvTpewNext t >>= fun r => tvTpewRun n r.2 >>= fun l => .ok (r.1 :: l)

end Ferret.Span
