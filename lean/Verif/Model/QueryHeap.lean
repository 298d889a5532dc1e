import Verif.Model.Explain

/-!
Queries as objects that searches rewrite: c/src/q_boolean.c 1339–1407 (bq_rewrite), 1241–1263 (bw_new); c/src/search.c
1217–1229 (isea_rewrite), 355–366 (q_weight).

Boolean queries hold references to the queries of their clauses. Rewriting gives back the query itself, one of the queries
below it, or a new one, and writes to the boosts of what it gives back, to `original_boost`, and to the clauses of queries
that only prohibit.

Simplifications.
* Memory is a list of objects, a reference is a position in it; reference counts and freeing are not modelled.
* Leaves that rewrite to something else (prefix, wildcard, fuzzy, range) are `expands`: they make a new leaf, given by a
  function of the leaf and its boost. What they expand to is in Expand.lean.
* The copy that bq_rewrite makes (1380–1395) is made after all clauses are rewritten instead of before the first that
  changes is put in.
* `max_clause_cnt`, which bq_add_query_nr checks (1403), is not modelled.
* The boost of a query is read once, when its weight is made; sum_of_squared_weights reads it again.
* Recursion is bounded by an amount of fuel; the theorems hold for every sufficient amount.
-/

namespace Ferret.QHeap
open Ferret Ferret.Scorer
open Ferret.Spec (Occur)

variable {S L : Type}

/-- A Query object: `boost`; for a BooleanQuery `original_boost` and `clauses` (c/include/search.h 292–302). -/
inductive QObj (S L : Type) where
  | leaf (k : Kind L) (boost : S)
  | expands (l : L) (boost : S)
  | bool (boost original : S) (cs : List (Occur × Nat))

/-- All query objects. -/
abbrev Heap (S L : Type) := List (QObj S L)

/-- `self->boost`. -/
def QObj.boost : QObj S L → S
  | .leaf _ b => b
  | .expands _ b => b
  | .bool b _ _ => b

/-- `self->boost = x`. -/
def QObj.withBoost (x : S) : QObj S L → QObj S L
  | .leaf k _ => .leaf k x
  | .expands l _ => .expands l x
  | .bool _ ob cs => .bool x ob cs

/-- `clause_cnt == 1` and `! clause->is_prohibited`, q_boolean.c 1346–1349: the one clause. -/
def single {α : Type} : List (Occur × α) → Option α
  | [(o, q)] => if o = .mustNot then none else some q
  | _ => none

variable [DecidableEq S]

/-- The boost of the one clause, q_boolean.c 1353–1368, after `clause->query`, `j`, was rewritten to `q`. -/
def rewriteOne (X : XArith S) (i j q : Nat) (h : Heap S L) : Res (Heap S L × Nat) :=
  match h[i]? with
  | some (.bool b ob cs) =>
    if X.isOne b then .ok (h, q)
    else if q = j ∧ ob ≠ X.zero then
      match h[q]? with
      | some o => .ok (h.set q (o.withBoost (X.mul ob b)), q)
      | none => .ub
    else
      match h[q]? with
      | some o =>
        match (h.set i (.bool b o.boost cs))[q]? with
        | some o' => .ok ((h.set i (.bool b o.boost cs)).set q (o'.withBoost (X.mul o'.boost b)), q)
        | none => .ub
      | none => .ub
  | _ => .ub

/-- `bq_add_query_nr(self, maq_new(), BC_MUST)`, q_boolean.c 1403. -/
def addAll (X : XArith S) (i : Nat) (h : Heap S L) : Res (Heap S L) :=
  match h[i]? with
  | some (.bool b ob cs) => .ok (h.set i (.bool b ob (cs ++ [(.must, h.length)])) ++ [.leaf .all X.one])
  | _ => .ub

/-- The copy, q_boolean.c 1380–1397, made if a clause `cs` was rewritten to something else in `cs'`. -/
def copyIf (i : Nat) (cs cs' : List (Occur × Nat)) (h : Heap S L) : Res (Heap S L × Nat) :=
  if cs' = cs then .ok (h, i)
  else
    match h[i]? with
    | some (.bool b ob _) => .ok (h ++ [.bool b ob cs'], h.length)
    | _ => .ub

/-- The loop of q_boolean.c 1374–1401: every clause rewritten in turn. -/
def rewriteEach (f : Heap S L → Nat → Res (Heap S L × Nat)) : Heap S L → List (Occur × Nat) → Res (Heap S L × List (Occur × Nat))
  | h, [] => .ok (h, [])
  | h, (o, j) :: cs =>
    f h j >>= fun r =>
    rewriteEach f r.1 cs >>= fun r' =>
    .ok (r'.1, (o, r.2) :: r'.2)

/-- What follows the loop, q_boolean.c 1402–1406. -/
def rewriteMany (X : XArith S) (i : Nat) (cs : List (Occur × Nat)) (h : Heap S L) (cs' : List (Occur × Nat)) : Res (Heap S L × Nat) :=
  copyIf i cs cs' h >>= fun r =>
  if !cs.isEmpty && cs.all (·.1 = .mustNot) then addAll X r.2 r.1 >>= fun h' => .ok (h', r.2)
  else .ok r

/-- `query->rewrite(query, ir)`: bq_rewrite, q_boolean.c 1339–1407; q_rewrite (search.c 314–318), by which a query is left
as it is; the rewriting of prefix, wildcard, fuzzy and range queries. -/
def rewriteQ (X : XArith S) (expand : L → S → Kind L × S) : Nat → Heap S L → Nat → Res (Heap S L × Nat)
  | 0, _, _ => .ub
  | n + 1, h, i =>
    match h[i]? with
    | none => .ub
    | some (.leaf _ _) => .ok (h, i)
    | some (.expands l b) => .ok (h ++ [.leaf (expand l b).1 (expand l b).2], h.length)
    | some (.bool _ _ cs) =>
      match single cs with
      | some j => rewriteQ X expand n h j >>= fun r => rewriteOne X i j r.2 r.1
      | none => rewriteEach (rewriteQ X expand n) h cs >>= fun r => rewriteMany X i cs r.1 r.2

/-- isea_rewrite, search.c 1217–1229: rewriting until nothing changes. `f` is how deep, the first number how often. -/
def iseaRewrite (X : XArith S) (expand : L → S → Kind L × S) (f : Nat) : Nat → Heap S L → Nat → Res (Heap S L × Nat)
  | 0, _, _ => .ub
  | n + 1, h, i =>
    rewriteQ X expand f h i >>= fun r =>
    if r.2 = i then .ok (r.1, i) else iseaRewrite X expand f n r.1 r.2

/-- The loop of bw_new, q_boolean.c 1248–1250. -/
def weighEach (f : Heap S L → Nat → Res (Heap S L × EQuery S L)) : Heap S L → List (Occur × Nat) →
    Res (Heap S L × List (Occur × EQuery S L))
  | h, [] => .ok (h, [])
  | h, (o, j) :: cs =>
    f h j >>= fun r =>
    weighEach f r.1 cs >>= fun r' =>
    .ok (r'.1, (o, r.2) :: r'.2)

/-- q_weight, search.c 355–366, with bw_new, q_boolean.c 1241–1263: the queries of which weights are made, every clause
being rewritten once more. A query that is still to be expanded has no create_weight_i. -/
def weigh (X : XArith S) (expand : L → S → Kind L × S) (f : Nat) : Nat → Heap S L → Nat → Res (Heap S L × EQuery S L)
  | 0, _, _ => .ub
  | n + 1, h, i =>
    iseaRewrite X expand f f h i >>= fun r =>
    match r.1[r.2]? with
    | some (.leaf k b) => .ok (r.1, .leaf k b)
    | some (.bool b _ cs) => weighEach (weigh X expand f n) r.1 cs >>= fun r' => .ok (r'.1, .bool b r'.2)
    | _ => .ub

/-- isea_search_each, search.c 1135–1175: what is left of the queries, and the hits. -/
def searchObj (X : XArith S) (expand : L → S → Kind L × S) (ix : EIx S L) (f : Nat) (h : Heap S L) (i : Nat) :
    Res (Heap S L × List (Int × S)) :=
  weigh X expand f f h i >>= fun r =>
  searchQuery X ix r.2 >>= fun hits =>
  .ok (r.1, hits)

/-- Searches one after the other, with the queries of the list. -/
def searchesObj (X : XArith S) (expand : L → S → Kind L × S) (ix : EIx S L) (f : Nat) : Heap S L → List Nat →
    Res (List (List (Int × S)))
  | _, [] => .ok []
  | h, i :: is =>
    searchObj X expand ix f h i >>= fun r =>
    searchesObj X expand ix f r.1 is >>= fun rs =>
    .ok (r.2 :: rs)

/-- bq_add_query, q_boolean.c 1601–1620. -/
def addClause (i : Nat) (o : Occur) (j : Nat) (h : Heap S L) : Res (Heap S L) :=
  match h[i]? with
  | some (.bool b ob cs) => .ok (h.set i (.bool b ob (cs ++ [(o, j)])))
  | _ => .ub

end Ferret.QHeap
