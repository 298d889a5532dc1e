import Verif.Props.C36

/-! C35: the unscored scan returns the first matches in order. -/

namespace Ferret.Props
open Ferret.Scorer Ferret.Spec

variable {S L : Type}

/-- **C35 (partial).** There is an ascending list of the matching documents such that, for every
limit `≥ 1` and every offset `≥ 0`, the unscored scan returns exactly the first `limit` of them
from `offset` on. For queries without conjunctions, nested to any depth; for a conjunction the
scan can report a wrong document (`c35_violated_conjunction`). -/
theorem c35_unscored_scan_partial (A : Arith S) (ix : TermIx S L) (hix : ix.WF) (q : BQuery L) (hq : q.conjFree = true) :
    ∃ M : List Int, M.Pairwise (· < ·) ∧ (∀ d, d ∈ M ↔ q.matches' ix.has ix.live d = true) ∧
      ∀ (limit : Nat) (offset : Int), 1 ≤ limit → 0 ≤ offset →
        searchUnscored A (termOps A) ix.env q limit offset = .ok ((M.filter (offset ≤ ·)).take limit) := by
  obtain ⟨hits, _, h2, h3⟩ := c36_boolean_logic_partial A ix hix q (conjFree_shallow q hq)
  refine ⟨hits.map (·.1), h2, h3, fun limit offset hl h0 => ?_⟩
  obtain ⟨full, f1, f2, f3⟩ := searchUnscored_spec (P := False) (A := A) (fun h => h.elim) good_term (ix.leafOK A hix) q hq hl h0
  rw [f3]
  congr 2
  refine sorted_unique f1 (h2.filter _) fun d => ?_
  rw [f2, List.mem_filter, h3, decide_eq_true_eq]
  rfl

example : (BQuery.bool [(.should, .leaf 0), (.should, .bool [(.must, .leaf 1), (.mustNot, .leaf 0)]), (.should, .leaf 3)]).conjFree = true := by decide
example : searchUnscored natArith (termOps natArith) sampleIx.env
    (.bool [(.should, .leaf 0), (.should, .bool [(.must, .leaf 1), (.mustNot, .leaf 0)]), (.should, .leaf 3)]) 2 2 = .ok [2, 7] := by decide

/-- The scan of a multi-searcher, from the scans of its sub-searchers: the first `limit`
matches, in the numbering of the whole, from `offset` on. -/
theorem c35_multi_unscored_scan (subs : List USub) (ms : List (Nat × List Int))
    (h : All2 (fun s m => s.size = m.1 ∧ s.OK m.2) subs ms) (limit : Nat) (offset : Int) :
    mseaUnscored subs 0 limit offset = .ok (((allMatches ms 0).filter (offset ≤ ·)).take limit) :=
  mseaUnscored_spec subs ms 0 limit offset h

/-- Two sub-searchers. -/
example : All2 (fun s m => USub.size s = m.1 ∧ s.OK m.2)
    [⟨5, fun l o => .ok (([1, 3].filter (o ≤ ·)).take l)⟩, ⟨4, fun l o => .ok (([0, 2].filter (o ≤ ·)).take l)⟩] [(5, [1, 3]), (4, [0, 2])] :=
  .cons ⟨rfl, by decide, fun _ _ _ _ => rfl⟩ (.cons ⟨rfl, by decide, fun _ _ _ _ => rfl⟩ .nil)
example : mseaUnscored [⟨5, fun l o => .ok (([1, 3].filter (o ≤ ·)).take l)⟩, ⟨4, fun l o => .ok (([0, 2].filter (o ≤ ·)).take l)⟩] 0 2 2 = .ok [3, 5] := by decide

/-- `+a +b` from document 2 on: document 10 is reported although `b` does not contain it. -/
theorem c35_violated_conjunction :
    searchUnscored natArith (termOps natArith) sampleIx.env (.bool [(.must, .leaf 0), (.must, .leaf 1)]) 5 2 = .ok [10] ∧
    (BQuery.bool [(.must, .leaf 0), (.must, .leaf 1)]).matches' sampleIx.has sampleIx.live 10 = false := by
  decide

/-- With limit 0 the scan writes one number into the empty buffer
(c/src/search.c:1195-1197 stores before it tests). -/
theorem c35_limit_zero_overflow :
    searchUnscored natArith (termOps natArith) sampleIx.env (.leaf 0) 0 0 = .ub := by decide

#print axioms c35_unscored_scan_partial
#print axioms c35_multi_unscored_scan
#print axioms c35_violated_conjunction
#print axioms c35_limit_zero_overflow
end Ferret.Props
