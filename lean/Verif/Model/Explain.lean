import Verif.Model.FilterQuery

/-!
Weights of queries and explanations of scores: c/src/search.c 233–249 (w_sum_of_squared_weights, w_normalize), 355–366
(q_weight), 1231–1239 (isea_explain); c/src/q_term.c 96–109, 155–229, 236–251 (tsc_explain, tw_explain, tw_new);
c/src/q_boolean.c 1105–1160, 1179–1263 (BooleanWeight, bw_explain); c/src/q_match_all.c 79–106; c/src/q_const_score.c
42–103; c/src/q_filtered_query.c 118–131; the first lines of phw_explain (c/src/q_phrase.c 613–615), multi_tw_explain
(c/src/q_multi_term.c 395–398) and spanw_explain (c/src/q_span.c 1415–1417).

Simplifications.
* Queries are given as rewriting leaves them (searcher->rewrite in q_weight, search.c 357, and in the q_weight of every
  clause, q_boolean.c 1249, changes nothing more; rewriting is in BoolQuery.lean).
* Of an explanation only the value is kept; the texts and the tree of details are not.
* Numbers are an abstract type `S`; float rounding is not modelled.
* Leaves are terms, all documents, constant-score queries, and phrase, multi-term and span queries over a field that the
  index does not have (`absent`). Phrase, multi-term and span queries over fields the index has are not in this file.
* The scorer of a constant-score query goes through the documents of its bits as the one of all documents does through
  those not deleted (its sharing of the bits is in ConstScore.lean).
* Postings are given without deleted documents (stde_next, index.c 2939–2968).
-/

namespace Ferret.Scorer
open Ferret
open Ferret.Spec (Occur BQuery)

variable {S L : Type}

/-- The arithmetic of scores: that of Scorer.lean, `1.0`, `sim_tf`, `sim_query_norm`, `> 0.0` and `== 1.0`. -/
structure XArith (S : Type) extends Arith S where
  one : S
  tf : Nat → S
  queryNorm : S → S
  pos : S → Bool
  isOne : S → Bool

/-- The kinds of leaf. -/
inductive Kind (L : Type) where
  | term (l : L)
  | absent (l : L)
  | all
  | const (l : L)
  deriving DecidableEq, Repr

/-- Queries with boosts. -/
inductive EQuery (S L : Type) where
  | leaf (k : Kind L) (boost : S)
  | bool (boost : S) (cs : List (Occur × EQuery S L))

/-- The fields of a FrtWeight, c/include/search.h 157–177, that hold numbers, and the boost of its query. -/
structure Wgt (S : Type) where
  boost : S
  idf : S
  qweight : S
  qnorm : S
  value : S

/-- Weights: BooleanWeight, q_boolean.c 1096–1102, has its boost in `value` (1260). -/
inductive Weight (S L : Type) where
  | leaf (k : Kind L) (w : Wgt S)
  | bool (value : S) (cs : List (Occur × Weight S L))

/-- What the weights and explanations read of an index. `bits` are the documents of a constant-score query. -/
structure EIx (S L : Type) where
  postings : L → List (Int × Nat)
  idf : L → S
  norm : L → Int → S
  bits : L → Int → Bool
  deleted : Int → Bool
  maxDoc : Nat

mutual
/-- w_sum_of_squared_weights, search.c 238–242, and bw_sum_of_squared_weights, q_boolean.c 1105–1122: the sum, and the
weight it leaves. -/
def sumSq (X : XArith S) : Weight S L → S × Weight S L
  | .leaf k w =>
    let qw := X.mul w.idf w.boost
    (X.mul qw qw, .leaf k { w with qweight := qw })
  | .bool v cs =>
    let r := sumSqL X X.zero cs
    (X.mul r.1 (X.mul v v), .bool v r.2)
/-- The loop of bw_sum_of_squared_weights, q_boolean.c 1111–1117. -/
def sumSqL (X : XArith S) (sum : S) : List (Occur × Weight S L) → S × List (Occur × Weight S L)
  | [] => (sum, [])
  | (o, w) :: cs =>
    if o = .mustNot then
      let r := sumSqL X sum cs
      (r.1, (o, w) :: r.2)
    else
      let r := sumSq X w
      let r' := sumSqL X (X.add sum r.1) cs
      (r'.1, (o, r.2) :: r'.2)
end

mutual
/-- w_normalize, search.c 244–249, and bw_normalize, q_boolean.c 1124–1138. -/
def normalize (X : XArith S) (nf : S) : Weight S L → Weight S L
  | .leaf k w =>
    let qw := X.mul w.qweight nf
    .leaf k { w with qnorm := nf, qweight := qw, value := X.mul qw w.idf }
  | .bool v cs => .bool v (normalizeL X (X.mul nf v) cs)
/-- The loop of bw_normalize, q_boolean.c 1131–1137. -/
def normalizeL (X : XArith S) (nf : S) : List (Occur × Weight S L) → List (Occur × Weight S L)
  | [] => []
  | (o, w) :: cs => (o, if o = .mustNot then w else normalize X nf w) :: normalizeL X nf cs
end

/-- The idf of a leaf: tw_new (q_term.c 244–248), maw_new (q_match_all.c 103), csw_new (q_const_score.c 100). -/
def Kind.idf (X : XArith S) (ix : EIx S L) : Kind L → S
  | .term l => ix.idf l
  | .absent l => ix.idf l
  | .all => X.one
  | .const _ => X.one

/-- The end of q_weight, search.c 359–364, for a weight just made. -/
def settle (X : XArith S) (w : Weight S L) : Weight S L :=
  let r := sumSq X w
  normalize X (X.queryNorm r.1) r.2

mutual
/-- q_weight, search.c 355–366; for boolean queries the weights of the clauses are made by q_weight too (bw_new,
q_boolean.c 1248–1250). -/
def qWeight (X : XArith S) (ix : EIx S L) : EQuery S L → Weight S L
  | .leaf k b => settle X (.leaf k ⟨b, k.idf X ix, X.zero, X.zero, X.zero⟩)
  | .bool b cs => settle X (.bool b (qWeightL X ix cs))
def qWeightL (X : XArith S) (ix : EIx S L) : List (Occur × EQuery S L) → List (Occur × Weight S L)
  | [] => []
  | (o, q) :: cs => (o, qWeight X ix q) :: qWeightL X ix cs
end

/-! ### Searching with a weight -/

mutual
/-- The scorers a weight asks for: its tree, a leaf with its value. -/
def Weight.tree : Weight S L → BQuery (Kind L × S)
  | .leaf k w => .leaf (k, w.value)
  | .bool _ cs => .bool (Weight.treeL cs)
def Weight.treeL : List (Occur × Weight S L) → List (Occur × BQuery (Kind L × S))
  | [] => []
  | (o, w) :: cs => (o, w.tree) :: Weight.treeL cs
end

/-- The scorers of leaves: tw_scorer (q_term.c 145–153), masc_new (q_match_all.c 50–66), cssc_new (q_const_score.c
42–56); phrase, multi-term and span queries over unknown fields have none (q_phrase.c 555–557, q_multi_term.c 340,
q_span.c 292). -/
def EIx.scorer (X : XArith S) (ix : EIx S L) : Kind L × S → Option (Leaf (TermW S) S)
  | (.term l, v) => some (.inl ⟨Term.new (ix.postings l), fun f => X.mul (X.tf f) v, ix.norm l⟩)
  | (.absent _, _) => none
  | (.all, v) => some (.inr ⟨ix.deleted, ix.maxDoc, v, -1⟩)
  | (.const l, v) => some (.inr ⟨fun d => !ix.bits l d, ix.maxDoc, v, -1⟩)

/-- What mkScorer reads. -/
def EIx.env (X : XArith S) (ix : EIx S L) : Env (Leaf (TermW S) S) S (Kind L × S) :=
  ⟨ix.scorer X, ix.deleted, ix.maxDoc, X.zero⟩

/-- isea_search_each, search.c 1135–1175, without filters, from the rewritten query. -/
def searchQuery (X : XArith S) (ix : EIx S L) (q : EQuery S L) : Res (List (Int × S)) :=
  let t := (qWeight X ix q).tree
  match mkScorer (ix.env X) (depth t) t with
  | none => .ok []
  | some s =>
    let p := lvlOps X.toArith (leafOps (leafOps (termOps X.toArith))) (depth t)
    drain p (p.left s + 1) s

/-! ### Explaining -/

/-- tsc_explain, q_term.c 96–109, on a new scorer. `freqs` is zeroed memory (scorer_create, search.c 474) but for what
tsc_skip_to wrote. -/
def tscExplain (X : XArith S) (postings : List (Int × Nat)) (d : Int) : Res S :=
  tscSkipTo (Term.new postings) d >>= fun r =>
  .ok (X.tf (if r.2.doc = d then (match r.2.buf[r.2.pointer]? with | some e => e.2 | none => 0) else 0))

/-- `field_norms[doc_num]` decoded, q_term.c 208–211: the array has `max_doc` entries. -/
def normAt (ix : EIx S L) (l : L) (d : Int) : Res S :=
  if 0 ≤ d ∧ d < ix.maxDoc then .ok (ix.norm l d) else .ub

/-- tw_explain, q_term.c 155–229. -/
def twExplain (X : XArith S) (ix : EIx S L) (l : L) (w : Wgt S) (d : Int) : Res S :=
  let query := X.mul (X.mul w.boost w.idf) w.qnorm
  tscExplain X (ix.postings l) d >>= fun tf =>
  normAt ix l d >>= fun norm =>
  let field := X.mul (X.mul tf w.idf) norm
  .ok (if X.isOne query then field else X.mul query field)

/-- The loop of bw_explain, q_boolean.c 1190–1217, over the clauses and what explains them: `inl` is an explanation
returned from inside. -/
def bwExplainLoop (X : XArith S) (sum : S) (coord max : Nat) : List (Occur × Res S) → Res (S ⊕ S × Nat × Nat)
  | [] => .ok (.inr (sum, coord, max))
  | (o, e) :: cs =>
    e >>= fun v =>
    let max := if o = .mustNot then max else max + 1
    if X.pos v then
      if o = .mustNot then .ok (.inl X.zero)
      else bwExplainLoop X (X.add sum v) (coord + 1) max cs
    else if o = .must then .ok (.inl X.zero)
    else bwExplainLoop X sum coord max cs

/-- bw_explain, q_boolean.c 1179–1239 (dropping the wrapper when one clause matches, 1220–1225, leaves the value). -/
def bwExplain (X : XArith S) (cs : List (Occur × Res S)) : Res S :=
  bwExplainLoop X X.zero 0 0 cs >>= fun r =>
  match r with
  | .inl v => .ok v
  | .inr (sum, coord, max) =>
    let factor := X.coord coord max
    .ok (if X.isOne factor then sum else X.mul sum factor)

/-- The explanation of a leaf: tw_explain; `expl_new(0.0, "field … does not exist")`; maw_explain (q_match_all.c 79–92)
and csw_explain (q_const_score.c 69–89), which give the weight's value whether the document matches or not. -/
def leafExplain (X : XArith S) (ix : EIx S L) (w : Wgt S) (d : Int) : Kind L → Res S
  | .term l => twExplain X ix l w d
  | .absent _ => .ok X.zero
  | .all => .ok (if !ix.deleted d then w.value else w.value)
  | .const l => .ok (if ix.bits l d then w.value else w.value)

mutual
/-- `weight->explain(weight, ir, doc_num)`. -/
def explainW (X : XArith S) (ix : EIx S L) (d : Int) : Weight S L → Res S
  | .leaf k w => leafExplain X ix w d k
  | .bool _ cs => bwExplain X (explainL X ix d cs)
def explainL (X : XArith S) (ix : EIx S L) (d : Int) : List (Occur × Weight S L) → List (Occur × Res S)
  | [] => []
  | (o, w) :: cs => (o, explainW X ix d w) :: explainL X ix d cs
end

/-- isea_explain, search.c 1231–1239, from the rewritten query. -/
def explain (X : XArith S) (ix : EIx S L) (q : EQuery S L) (d : Int) : Res S := explainW X ix d (qWeight X ix q)

/-! ### A filtered query -/

/-- q_weight (search.c 355–366) of a filtered query: the weight of the query it filters (fq_new_weight,
q_filtered_query.c 192–197), summed and normalised once more through it (100–110). -/
def filteredWeight (X : XArith S) (ix : EIx S L) (q : EQuery S L) : Weight S L := settle X (qWeight X ix q)

/-- isea_search_each with a filtered query: fqw_scorer, q_filtered_query.c 124–131. -/
def searchFilteredQuery (X : XArith S) (ix : EIx S L) (bv : BitVector.BV) (q : EQuery S L) : Res (List (Int × S)) :=
  let t := (filteredWeight X ix q).tree
  match mkScorer (ix.env X) (depth t) t with
  | none => .ub
  | some s =>
    let p := fqOps (lvlOps X.toArith (leafOps (leafOps (termOps X.toArith))) (depth t))
    drain p (p.left ⟨s, bv, -1⟩ + 1) ⟨s, bv, -1⟩

/-- isea_explain with a filtered query: fqw_explain, q_filtered_query.c 118–122. -/
def explainFiltered (X : XArith S) (ix : EIx S L) (_bv : BitVector.BV) (q : EQuery S L) (d : Int) : Res S :=
  explainW X ix d (filteredWeight X ix q)

end Ferret.Scorer
