import Verif.Model.BoolQuery
import Verif.Model.ConstScore

/-!
Filters and filtered queries: c/src/q_filtered_query.c 14–80, 124–131 (FilteredQueryScorer, fqw_scorer), c/src/filter.c
24–38, 105–120 (filt_get_bv, qfilt_get_bv_i), and searching with a filter and a post filter, c/src/search.c 1135–1175
(isea_search_each_w, isea_search_each).

Simplifications.
* Queries and scorers are those of BoolQuery.lean; the bits of a filter those of BitVector.lean.
* A post filter gives a factor for a document and its score, `none` for 0; it has no effects of its own.
* A reader is an index of terms with a set of deleted documents: postings are given without the deleted ones, as
  stde_next leaves them out (index.c 2939–2968). One thread; what else changes a reader is not in this file.
* The cache of a filter is for one reader (filt->cache holds one entry per reader, see ConstScore.lean).
-/

namespace Ferret.Scorer
open Ferret Ferret.BitVector
open Ferret.Spec (BQuery)

variable {σ S L : Type}

/-- FilteredQueryScorer, q_filtered_query.c 14–19. -/
structure FQ (σ : Type) where
  sub : σ
  bv : BV
  doc : Int

/-- The loop of fqsc_next, q_filtered_query.c 31–35, and of fqsc_skip_to behind its first document. -/
def fqLoop (o : Ops σ S) : Nat → FQ σ → Res (Bool × FQ σ)
  | 0, _ => .ub
  | fuel + 1, s =>
    o.next s.sub >>= fun r =>
    if r.1 then
      get s.bv (o.doc r.2) >>= fun b =>
      if b then .ok (true, { s with sub := r.2, doc := o.doc r.2 })
      else fqLoop o fuel { s with sub := r.2, doc := o.doc r.2 }
    else .ok (false, { s with sub := r.2 })

/-- fqsc_next, q_filtered_query.c 27–36. -/
def fqNext (o : Ops σ S) (s : FQ σ) : Res (Bool × FQ σ) := fqLoop o (o.left s.sub + 1) s

/-- fqsc_skip_to, q_filtered_query.c 38–51. -/
def fqSkipTo (o : Ops σ S) (s : FQ σ) (n : Int) : Res (Bool × FQ σ) :=
  o.skipTo s.sub n >>= fun r =>
  if r.1 then
    get s.bv (o.doc r.2) >>= fun b =>
    if b then .ok (true, { s with sub := r.2, doc := o.doc r.2 })
    else fqLoop o (o.left r.2 + 1) { s with sub := r.2, doc := o.doc r.2 }
  else .ok (false, { s with sub := r.2 })

/-- fqsc_score, q_filtered_query.c 21–25. -/
def fqScore (o : Ops σ S) (s : FQ σ) : Res (S × Nat × FQ σ) :=
  o.score s.sub >>= fun x => .ok (x.1, x.2.1, { s with sub := x.2.2 })

/-- fqsc_new, q_filtered_query.c 66–80. -/
def fqOps (o : Ops σ S) : Ops (FQ σ) S := ⟨fqNext o, fqSkipTo o, fqScore o, FQ.doc, fun s => o.left s.sub⟩

/-- Searching for a filtered query, search.c 1135–1175 with fqw_scorer, q_filtered_query.c 124–131: a sub-scorer that is
NULL is called nevertheless. -/
def searchFiltered (A : Arith S) (o : Ops σ S) (e : Env σ S L) (bv : BV) (q : BQuery L) : Res (List (Int × S)) :=
  let q := rewrite q
  match mkScorer e (depth q) q with
  | none => .ub
  | some s =>
    let p := fqOps (lvlOps A (leafOps o) (depth q))
    drain p (p.left ⟨s, bv, -1⟩ + 1) ⟨s, bv, -1⟩

/-- `bits && !bv_get(bits, scorer->doc)`, search.c 1153: the document may pass. -/
def passes (bits : Option BV) (d : Int) : Res Bool :=
  match bits with
  | none => .ok true
  | some bv => get bv d

/-- The loop of isea_search_each_w, search.c 1151–1164, with the bits of a filter and a post filter. -/
def drainKept (A : Arith S) (o : Ops σ S) (bits : Option BV) (post : Option (Int → S → Option S)) : Nat → σ →
    Res (List (Int × S))
  | 0, _ => .ub
  | fuel + 1, s =>
    o.next s >>= fun r =>
    if r.1 then
      passes bits (o.doc r.2) >>= fun b =>
      if !b then drainKept A o bits post fuel r.2
      else
        o.score r.2 >>= fun x =>
        match post with
        | none => drainKept A o bits post fuel x.2.2 >>= fun l => .ok ((o.doc r.2, x.1) :: l)
        | some f =>
          match f (o.doc r.2) x.1 with
          | none => drainKept A o bits post fuel x.2.2
          | some k => drainKept A o bits post fuel x.2.2 >>= fun l => .ok ((o.doc r.2, A.mul k x.1) :: l)
    else .ok []

/-- isea_search_each, search.c 1135–1175, with a filter and a post filter. -/
def searchKept (A : Arith S) (o : Ops σ S) (e : Env σ S L) (bits : Option BV) (post : Option (Int → S → Option S))
    (q : BQuery L) : Res (List (Int × S)) :=
  let q := rewrite q
  match mkScorer e (depth q) q with
  | none => .ok []
  | some s =>
    let p := lvlOps A (leafOps o) (depth q)
    drainKept A p bits post (p.left s + 1) s

/-- `while (scorer->next(scorer))`, filter.c 112–114: the documents. -/
def docsOf (o : Ops σ S) : Nat → σ → Res (List Nat)
  | 0, _ => .ub
  | fuel + 1, s =>
    o.next s >>= fun r =>
    if r.1 then docsOf o fuel r.2 >>= fun l => .ok ((o.doc r.2).toNat :: l)
    else .ok []

/-- qfilt_get_bv_i, filter.c 105–120. -/
def queryBits (A : Arith S) (o : Ops σ S) (e : Env σ S L) (q : BQuery L) : Res BV :=
  let q := rewrite q
  match mkScorer e (depth q) q with
  | none => .ok (newCapa e.maxDoc)
  | some s =>
    let p := lvlOps A (leafOps o) (depth q)
    docsOf p (p.left s + 1) s >>= fun ds => ConstScore.setAll (newCapa e.maxDoc) ds

/-! ### A reader and a filter over time -/

/-- An index with some documents deleted: their postings are left out (stde_next, index.c 2939–2968). -/
def TermIx.without (ix : TermIx S L) (del : Int → Bool) : TermIx S L :=
  { ix with postings := fun l => (ix.postings l).filter (fun e => !del e.1), deleted := del }

/-- The deleted documents of a reader and what a filter holds for it. -/
structure FState where
  del : Int → Bool
  cache : Option BV

/-- What is done with a reader: ir_delete_doc, ir_undelete_all, a search with the filter, and a search for a filtered
query over it. -/
inductive FEvent (L : Type) where
  | delete (d : Nat)
  | undeleteAll
  | search (q : BQuery L)
  | filtered (q : BQuery L)

/-- filt_get_bv, filter.c 24–38. -/
def filtBits (A : Arith S) (ix : TermIx S L) (fq : BQuery L) (st : FState) : Res BV :=
  match st.cache with
  | some bv => .ok bv
  | none => queryBits A (termOps A) (ix.without st.del).env fq

/-- One of them: what it reports. -/
def fstep (A : Arith S) (ix : TermIx S L) (fq : BQuery L) (st : FState) : FEvent L → Res (FState × List (Int × S))
  | .delete d => .ok ({ st with del := fun x => x == d || st.del x }, [])
  | .undeleteAll => .ok ({ st with del := fun _ => false }, [])
  | .search q =>
    filtBits A ix fq st >>= fun bv =>
    searchKept A (termOps A) (ix.without st.del).env (some bv) none q >>= fun hits => .ok ({ st with cache := some bv }, hits)
  | .filtered q =>
    filtBits A ix fq st >>= fun bv =>
    searchFiltered A (termOps A) (ix.without st.del).env bv q >>= fun hits => .ok ({ st with cache := some bv }, hits)

/-- One after the other: what each reports. -/
def frun (A : Arith S) (ix : TermIx S L) (fq : BQuery L) : FState → List (FEvent L) → Res (FState × List (List (Int × S)))
  | st, [] => .ok (st, [])
  | st, ev :: evs =>
    fstep A ix fq st ev >>= fun r =>
    frun A ix fq r.1 evs >>= fun x => .ok (x.1, r.2 :: x.2)

end Ferret.Scorer
