import Verif.Model.Basic
import Verif.Spec.BoolQuery

/-!
Searching several searchers with one query: c/src/search.c 369–420 (q_combine), 1759–1777 (msea_rewrite), 355–366 (q_weight),
1471–1482 (msea_doc_freq); c/src/q_boolean.c 1339–1408 (bq_rewrite), 1241–1250 (bw_new).

A query is rewritten by every searcher of a MultiSearcher, the results are put together by q_combine, and the weight that is made of
them is used with every searcher. Weights of clauses are made by rewriting and putting together again.

Simplifications.
* Leaves: `own`, which rewrites to itself (terms, phrases, ranges, which need no index to be rewritten), `pattern` (prefix, wildcard, fuzzy), which
  rewrites to the query for the terms that a searcher has for it, and `many`, which is that query (C42, C88).
* Boosts and scores are not here. Of `coord_disabled` there is the flag.
* The set of queries in q_combine is a list in the order of adding, where a query is added unless one is there that `same`, which is q_eq, says is equal
  (C06 for the set, C66 for q_eq).
* isea_rewrite, search.c 1217–1229, is one pass of bq_rewrite: another one finds nothing more to expand.
* A weight is the query it is made of; recursion is bounded by fuel.
-/

namespace Ferret.Comb
open Ferret
open Ferret.Spec (Occur BQuery)

inductive CLeaf (L K : Type) where
  | own (l : L)
  | many (ls : List L)
  | pattern (k : K)

inductive CQ (L K : Type) where
  | leaf (l : CLeaf L K)
  | all
  | bool (coordOff : Bool) (cs : List (Occur × CQ L K))

variable {L K : Type}

mutual
/-- bq_rewrite, q_boolean.c 1339–1408, and the rewriting of patterns, with the terms that the searcher has for each. -/
def rewrite (expand : K → List L) : CQ L K → CQ L K
  | .leaf (.pattern k) => .leaf (.many (expand k))
  | .leaf l => .leaf l
  | .all => .all
  | .bool _ [(.must, q)] => rewrite expand q
  | .bool _ [(.should, q)] => rewrite expand q
  | .bool c cs =>
    if !cs.isEmpty && cs.all (·.1 = .mustNot) then .bool c (rewriteL expand cs ++ [(.must, .all)])
    else .bool c (rewriteL expand cs)
def rewriteL (expand : K → List L) : List (Occur × CQ L K) → List (Occur × CQ L K)
  | [] => []
  | (o, q) :: cs => (o, rewrite expand q) :: rewriteL expand cs
end

/-- What q_combine adds to its set for a query, search.c 375–406: its clauses if it is `splittable`. -/
def parts : CQ L K → List (CQ L K)
  | .bool true cs => if cs.all (·.1 = .should) then cs.map (·.2) else [.bool true cs]
  | q => [q]

/-- hs_add, as q_combine uses it. -/
def hsAdd (same : CQ L K → CQ L K → Bool) (u : List (CQ L K)) (q : CQ L K) : List (CQ L K) := if u.any (fun x => same x q) then u else u ++ [q]

/-- The set. -/
def uniques (same : CQ L K → CQ L K → Bool) (qs : List (CQ L K)) : List (CQ L K) := (qs.flatMap parts).foldl (hsAdd same) []

/-- DEFAULT_MAX_CLAUSE_COUNT, search.h 271. -/
def maxClauses : Nat := 1024

/-- search.c 407–417, with the check of bq_add_query, q_boolean.c 1604. -/
def wrap (u : List (CQ L K)) : Res (CQ L K) :=
  match u with
  | [q] => .ok q
  | u => if maxClauses < u.length then .raise .state else .ok (.bool true (u.map fun q => (.should, q)))

/-- q_combine, search.c 369–420. -/
def combine (same : CQ L K → CQ L K → Bool) (qs : List (CQ L K)) : Res (CQ L K) := wrap (uniques same qs)

/-- msea_rewrite, search.c 1759–1777: `subs` are the searchers. -/
def mseaRewrite (same : CQ L K → CQ L K → Bool) (subs : List (K → List L)) (q : CQ L K) : Res (CQ L K) := combine same (subs.map fun e => rewrite e q)

/-- The loop of bw_new, q_boolean.c 1248–1250. -/
def weighL (f : CQ L K → Res (CQ L K)) : List (Occur × CQ L K) → Res (List (Occur × CQ L K))
  | [] => .ok []
  | (o, q) :: cs => f q >>= fun w => weighL f cs >>= fun ws => .ok ((o, w) :: ws)

/-- q_weight, search.c 355–366, for a MultiSearcher. -/
def weigh (same : CQ L K → CQ L K → Bool) (subs : List (K → List L)) : Nat → CQ L K → Res (CQ L K)
  | 0, _ => .ub
  | n + 1, q =>
    mseaRewrite same subs q >>= fun r =>
    match r with
    | .bool c cs => weighL (weigh same subs n) cs >>= fun ws => .ok (.bool c ws)
    | r => .ok r

/-- msea_doc_freq, search.c 1471–1482. -/
def mseaDocFreq (dfs : List Nat) : Nat := dfs.foldl (· + ·) 0

end Ferret.Comb
