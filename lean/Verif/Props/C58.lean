import Verif.Props.C36

/-! C58: the score of a boolean query. -/

namespace Ferret.Props
open Ferret.Scorer Ferret.Spec

variable {S L : Type}

/-- **C58 (partial).** With exact arithmetic (`Lawful`: the sum is commutative and associative,
and the coordination of one clause out of one, and of a disjunction's own matches, is neutral)
every hit of a search carries the score of the query by its meaning: coordination factor (number
of matching clauses out of the MUST and SHOULD clauses) times the sum of the scores of the
matching clauses, recursively, with term scores from the posting's frequency and norm. For the
queries of C36. -/
theorem c58_boolean_score_partial (A : Arith S) (hA : Lawful A) (hc : ∀ a, A.mul a (A.coord 1 1) = a) (ix : TermIx S L) (hix : ix.WF)
    (q : BQuery L) (hq : q.shallow = true) :
    ∃ hits, searchEach A (termOps A) ix.env q = .ok hits ∧ (∀ d, d ∈ hits.map (·.1) ↔ q.matches' ix.has ix.live d = true) ∧
      ∀ h ∈ hits, h.2 = q.score ⟨A.zero, A.add, A.mul, A.coord⟩ ix.has ix.live (ix.score A) ix.allScore h.1 := by
  obtain ⟨hits, h1, _, h3, h4⟩ := searchEach_spec (P := True) (fun _ => hA) good_term (ix.leafOK A hix) q hq
  refine ⟨hits, h1, fun d => (h3 d).trans ⟨fun h => h.1, fun h => ⟨h, ix.nonneg hix h⟩⟩, fun h hh => ?_⟩
  have hm := (h3 h.1).mp (List.mem_map.mpr ⟨h, hh, rfl⟩)
  rw [h4 trivial (fun _ => rfl) h hh]
  exact rewrite_score hA hc _ _ _ _ _ q (by rw [rewrite_matches]; exact hm.1)

/-- Integer arithmetic with coordination factor "matching clauses" is lawful. -/
theorem natArith_lawful : Lawful natArith :=
  ⟨Nat.add_comm, Nat.add_assoc, Nat.zero_add, fun a n _ => by show a * 1 = a; omega⟩
example : ∀ a, natArith.mul a (natArith.coord 1 1) = a := fun a => by show a * 1 = a; omega
example : searchEach natArith (termOps natArith) sampleIx.env (.bool [(.must, .leaf 0), (.should, .leaf 3), (.should, .leaf 1)]) =
    .ok [(1, 6), (10, 8)] := by decide
example : (BQuery.bool [(.must, .leaf 0), (.should, .leaf 3), (.should, .leaf 1)]).score ⟨0, (· + ·), (· * ·), fun k _ => k⟩
    sampleIx.has sampleIx.live (sampleIx.score natArith) sampleIx.allScore 10 = 8 := by decide

#print axioms c58_boolean_score_partial
end Ferret.Props
