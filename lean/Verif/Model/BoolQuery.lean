import Verif.Model.Scorer

/-!
Model of evaluating a boolean query: `bq_rewrite`, building the scorers (`bw_scorer`), and the
loops of the searcher that drain a scorer.

Simplifications.
* Leaf queries are abstract: `mkLeaf l` is the scorer their weight makes (`none` = NULL) and
  they rewrite to themselves (`q_rewrite_i`); prefix, wildcard, range and fuzzy queries, which
  rewrite to other queries, are leaves here.
* Boosts and the query norm are not modelled (they are inside the leaf scores).
* `max_clause_cnt` (bq_add_query) is not enforced by the code and not modelled.
-/

namespace Ferret.Scorer

open Ferret.Spec (Occur BQuery)

variable {σ S L : Type}

mutual
/-- `bq_rewrite`, c/src/q_boolean.c:1339-1408 (first-clause shortcut 1346-1369, clause loop
1371-1401, MUST MatchAll for only-prohibited clauses 1402-1404); other queries return
themselves. -/
def rewrite : BQuery L → BQuery L
  | .leaf l => .leaf l
  | .all => .all
  | .bool [(.must, q)] => rewrite q
  | .bool [(.should, q)] => rewrite q
  | .bool cs =>
    if !cs.isEmpty && cs.all (·.1 = .mustNot) then .bool (rewriteL cs ++ [(.must, .all)])
    else .bool (rewriteL cs)
/-- The clause loop, c/src/q_boolean.c:1373-1401. -/
def rewriteL : List (Occur × BQuery L) → List (Occur × BQuery L)
  | [] => []
  | (o, q) :: cs => (o, rewrite q) :: rewriteL cs
end

mutual
/-- Nesting depth of boolean queries. -/
def depth : BQuery L → Nat
  | .leaf _ => 0
  | .all => 0
  | .bool cs => depthL cs + 1
def depthL : List (Occur × BQuery L) → Nat
  | [] => 0
  | (_, q) :: cs => max (depth q) (depthL cs)
end

/-- Scorer of a leaf or of the match-all query. -/
abbrev Leaf (σ S : Type) := σ ⊕ MatchAll S

/-- Function pointers of the leaf scorers. -/
def leafOps (o : Ops σ S) : Ops (Leaf σ S) S := sumOps o matchAllOps

/-- The leaf scorers and the facts about the reader that `masc_new` (c/src/q_match_all.c:48-64)
reads. -/
structure Env (σ S L : Type) where
  mkLeaf : L → Option σ
  deleted : Int → Bool
  maxDoc : Nat
  allScore : S

/-- `masc_new`, c/src/q_match_all.c:48-64. -/
def Env.all (e : Env σ S L) : Leaf σ S := .inr ⟨e.deleted, e.maxDoc, e.allScore, -1⟩

/-- A leaf scorer as a scorer of level `n`. -/
def atLvl : (n : Nat) → Leaf σ S → Lvl (Leaf σ S) S n
  | 0, s => s
  | _ + 1, s => .inl s

/-- `weight->scorer`: `bw_scorer` (c/src/q_boolean.c:1140-1160) for boolean queries; `n` bounds
the nesting. -/
def mkScorer (e : Env σ S L) : (n : Nat) → BQuery L → Option (Lvl (Leaf σ S) S n)
  | n, .leaf l => (e.mkLeaf l).map fun s => atLvl n (.inl s)
  | n, .all => some (atLvl n e.all)
  | 0, .bool _ => none
  | n + 1, .bool cs => (bwScorer (cs.map fun c => (c.1, mkScorer e n c.2)) Bsc.new).map .inr

/-- The loop of `isea_search_each_w`, c/src/search.c:1151-1164, without filters: the documents
and scores passed to the callback. -/
def drain (o : Ops σ S) : Nat → σ → Res (List (Int × S))
  | 0, _ => .ub
  | fuel + 1, s =>
    o.next s >>= fun r =>
    if r.1 then
      o.score r.2 >>= fun x =>
      drain o fuel x.2.2 >>= fun l => .ok ((o.doc r.2, x.1) :: l)
    else .ok []

/-- `isea_search_each`, c/src/search.c:1132-1177: rewrite, make the scorer, drain it. -/
def searchEach (A : Arith S) (o : Ops σ S) (e : Env σ S L) (q : BQuery L) : Res (List (Int × S)) :=
  let q := rewrite q
  match mkScorer e (depth q) q with
  | none => .ok []
  | some s =>
    let p := lvlOps A (leafOps o) (depth q)
    drain p (p.left s + 1) s

/-- The do-while loop of `isea_search_unscored_w`, c/src/search.c:1195-1197, from a scorer that
stands on a match; `buf` has room for `limit` numbers, writing past it is undefined. -/
def unscoredLoop (o : Ops σ S) (limit : Nat) : Nat → σ → Nat → Res (List Int)
  | 0, _, _ => .ub
  | fuel + 1, s, count =>
    if count < limit then
      if count + 1 < limit then
        o.next s >>= fun r =>
        if r.1 then unscoredLoop o limit fuel r.2 (count + 1) >>= fun l => .ok (o.doc s :: l)
        else .ok [o.doc s]
      else .ok [o.doc s]
    else .ub

/-- `isea_search_unscored_w` on the scorer, c/src/search.c:1185-1202. -/
def unscored (o : Ops σ S) (s : σ) (limit : Nat) (offset : Int) : Res (List Int) :=
  o.skipTo s offset >>= fun r =>
  if r.1 then unscoredLoop o limit (o.left r.2 + 1) r.2 0
  else .ok []

/-- `isea_search_unscored`, c/src/search.c:1204-1215. -/
def searchUnscored (A : Arith S) (o : Ops σ S) (e : Env σ S L) (q : BQuery L) (limit : Nat) (offset : Int) : Res (List Int) :=
  let q := rewrite q
  match mkScorer e (depth q) q with
  | none => .ok []
  | some s => unscored (lvlOps A (leafOps o) (depth q)) s limit offset

/-- An index whose leaves are terms: postings (document, frequency) of every term as
`ir_term_docs_for` delivers them, weights, norms, and what the match-all scorer reads. -/
structure TermIx (S L : Type) where
  postings : L → List (Int × Nat)
  tfw : L → Nat → S
  norm : L → Int → S
  deleted : Int → Bool
  maxDoc : Nat
  allScore : S

/-- `tw_scorer`, c/src/q_term.c:145-153 (never NULL). -/
def TermIx.env (ix : TermIx S L) : Env (TermW S) S L :=
  ⟨fun l => some ⟨Term.new (ix.postings l), ix.tfw l, ix.norm l⟩, ix.deleted, ix.maxDoc, ix.allScore⟩

/-- Document `d` is in the posting list of the term. -/
def TermIx.has (ix : TermIx S L) (l : L) (d : Int) : Bool := (ix.postings l).any (·.1 = d)

/-- Document `d` exists and is not deleted. -/
def TermIx.live (ix : TermIx S L) (d : Int) : Bool := decide (0 ≤ d) && decide (d < ix.maxDoc) && !ix.deleted d

/-- The score of a term in document `d`: weight of its frequency times the norm. -/
def TermIx.score (A : Arith S) (ix : TermIx S L) (l : L) (d : Int) : S :=
  match (ix.postings l).find? (·.1 = d) with
  | some e => A.mul (ix.tfw l e.2) (ix.norm l d)
  | none => A.zero

/-- Posting lists are strictly ascending and non-negative. -/
def TermIx.WF (ix : TermIx S L) : Prop :=
  ∀ l, (ix.postings l).Pairwise (fun a b => a.1 < b.1) ∧ ∀ e ∈ ix.postings l, 0 ≤ e.1

end Ferret.Scorer
