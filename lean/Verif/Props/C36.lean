import Verif.Lemmas.Walk

/-! C36: boolean queries match by boolean logic. -/

namespace Ferret.Props
open Ferret.Scorer Ferret.Spec

variable {S L : Type}

/-- **C36 (partial).** Searching an index of terms for a boolean query, nested to any depth and
over any posting lists, is defined, reports every document at most once and in ascending order,
and reports exactly the documents that match by boolean logic (`BQuery.matches_bool`). This
holds for any score arithmetic, rounding included.
Missing: queries that are not `shallow`, i.e. with a conjunction below another conjunction, a
MUST_NOT or the SHOULD part of a query with MUST clauses; there the code is wrong
(`c36_violated_nested_conjunction`). -/
theorem c36_boolean_logic_partial (A : Arith S) (ix : TermIx S L) (hix : ix.WF) (q : BQuery L) (hq : q.shallow = true) :
    ∃ hits, searchEach A (termOps A) ix.env q = .ok hits ∧ (hits.map (·.1)).Pairwise (· < ·) ∧
      ∀ d, d ∈ hits.map (·.1) ↔ q.matches' ix.has ix.live d = true := by
  obtain ⟨hits, h1, h2, h3, _⟩ := searchEach_spec (P := False) (A := A) (fun h => h.elim) good_term (ix.leafOK A hix) q hq
  refine ⟨hits, h1, h2, fun d => (h3 d).trans ⟨fun h => h.1, fun h => ⟨h, ix.nonneg hix h⟩⟩⟩

/-- Whole numbers as scores. -/
def natArith : Arith Nat := ⟨0, (· + ·), (· * ·), fun k _ => k, fun _ _ => 1⟩

/-- Four terms over documents 0 … 11, document 5 deleted. -/
def sampleIx : TermIx Nat Nat where
  postings
    | 0 => [(1, 1), (10, 1)]
    | 1 => [(1, 2), (7, 1)]
    | 2 => [(7, 1)]
    | _ => [(2, 1), (10, 3)]
  tfw _ f := f
  norm _ _ := 1
  deleted d := d = 5
  maxDoc := 12
  allScore := 1

theorem sampleIx_wf : sampleIx.WF := by
  intro l
  unfold sampleIx
  match l with
  | 0 => decide
  | 1 => decide
  | 2 => decide
  | n + 3 => exact (by decide : ([(2, 1), (10, 3)] : List (Int × Nat)).Pairwise (fun a b => a.1 < b.1) ∧ ∀ e ∈ ([(2, 1), (10, 3)] : List (Int × Nat)), 0 ≤ e.1)

/-- `+a (b c) -d` and its hits; a nested query that is `shallow`. -/
example : (BQuery.bool [(.must, .leaf 0), (.should, .bool [(.should, .leaf 1), (.should, .leaf 2)]), (.mustNot, .leaf 3)]).shallow = true := by decide
example : searchEach natArith (termOps natArith) sampleIx.env
    (.bool [(.must, .leaf 0), (.should, .bool [(.should, .leaf 1), (.should, .leaf 2)]), (.mustNot, .leaf 3)]) = .ok [(1, 6)] := by decide
example : searchEach natArith (termOps natArith) sampleIx.env (.bool [(.should, .bool [(.must, .leaf 0), (.must, .leaf 1)]), (.should, .leaf 2)]) =
    .ok [(1, 6), (7, 1)] := by decide
example : searchEach natArith (termOps natArith) sampleIx.env (.bool [(.mustNot, .leaf 1), (.mustNot, .leaf 3)]) =
    .ok [(0, 1), (3, 1), (4, 1), (6, 1), (8, 1), (9, 1), (11, 1)] := by decide

/-- `+(+a +(b c)) +d`: document 10 is reported although neither `b` nor `c` contains it. The
inner conjunction is asked to jump to a document after the last one of `b c`; `csc_skip_to`
(c/src/q_boolean.c:398-408) forgets that one sub-scorer is exhausted when a later one is not. -/
theorem c36_violated_nested_conjunction :
    ¬ ∀ (ix : TermIx Nat Nat), ix.WF → ∀ q : BQuery Nat,
      ∃ hits, searchEach natArith (termOps natArith) ix.env q = .ok hits ∧
        ∀ d, d ∈ hits.map (·.1) ↔ q.matches' ix.has ix.live d = true := by
  intro h
  obtain ⟨hits, h1, h2⟩ := h sampleIx sampleIx_wf
    (.bool [(.must, .bool [(.must, .leaf 0), (.must, .bool [(.should, .leaf 1), (.should, .leaf 2)])]), (.must, .leaf 3)])
  have : hits = [(10, 26)] := by
    have e : searchEach natArith (termOps natArith) sampleIx.env
      (.bool [(.must, .bool [(.must, .leaf 0), (.must, .bool [(.should, .leaf 1), (.should, .leaf 2)])]), (.must, .leaf 3)]) = .ok [(10, 26)] := by decide
    rw [e] at h1
    injection h1 with h1
    exact h1.symm
  subst this
  have := (h2 10).mp (by decide)
  revert this
  decide

#print axioms c36_boolean_logic_partial
#print axioms c36_violated_nested_conjunction
end Ferret.Props
