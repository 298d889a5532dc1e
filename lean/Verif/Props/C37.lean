import Verif.Props.C36

/-! C37: jumping agrees with stepping. -/

namespace Ferret.Props
open Ferret.Scorer Ferret.Spec

variable {S L : Type}

/-- **C37 (partial).** For every query without conjunctions, nested to any depth, over any
posting lists: the scorer exists, and any sequence of `next` and `skip_to` calls (each jump to a
document past the current one, a score asked for or not after each), up to the first
unsuccessful one, visits what the same walk through the ascending list `M` of the matching
documents visits. For a conjunction a jump can visit a wrong document
(`c37_violated_conjunction`). -/
theorem c37_skip_consistent_partial (A : Arith S) (ix : TermIx S L) (hix : ix.WF) (q : BQuery L) (hq : q.conjFree = true) :
    ∃ s, mkScorer ix.env (depth (rewrite q)) (rewrite q) = some s ∧
    ∃ M : List (Int × Unit), (M.map (·.1)).Pairwise (· < ·) ∧ (∀ d, d ∈ M.map (·.1) ↔ q.matches' ix.has ix.live d = true) ∧
      ∀ moves : List (Move × Bool), ahead (-1) M (moves.map (·.1)) →
        ∃ out, runStop (lvlOps A (leafOps (termOps A)) (depth (rewrite q))) s moves = .ok out ∧
          out.map (Option.map (·.1)) = (walkStop M (moves.map (·.1))).map (Option.map (·.1)) := by
  have hcf := rewrite_conjFree q hq
  have hle := ix.leafOK A hix
  have hn := nullQ_false (e := ix.env) (fun l => rfl) (rewrite q)
  have hs := mkScorer_spec (P := False) (A := A) (fun h => h.elim) good_term hle (depth (rewrite q)) (rewrite q) (Nat.le_refl _) (conjFree_shallow _ hcf)
  cases hm : mkScorer ix.env (depth (rewrite q)) (rewrite q) with
  | none => rw [hm, hn] at hs; cases hs
  | some s =>
    rw [hm] at hs
    have g := good_lvl (P := False) (A := A) (fun h => h.elim) (good_leaf (good_term (A := A))) (depth (rewrite q))
    obtain ⟨full, f1, f2⟩ := exists_full g hs.2
    have f3 : ∀ d, d ∈ full ↔ q.matches' ix.has ix.live d = true := by
      intro d
      rw [f2, view_docs hle d _ (rewrite_proper q) hn, rewrite_matches]
      exact ⟨fun h => h.1, fun h => ⟨h, by have := ix.nonneg hix h; omega⟩⟩
    refine ⟨s, rfl, full.map (fun d => (d, ())), ?_, ?_, fun moves ha => ?_⟩
    · rw [List.map_map]; simpa [Function.comp_def] using f1
    · intro d; rw [List.map_map]; simpa [Function.comp_def] using f3 d
    · have hmm : ((full.map fun d => (d, A.zero)).map (·.1)) = full := by rw [List.map_map]; simp [Function.comp_def]
      have hdw : ∀ (l : List Int) (n : Int), (l.map fun d => (d, ())).dropWhile (fun e => e.1 < n) = (l.dropWhile (· < n)).map fun d => (d, ()) := by
        intro l n; rw [List.dropWhile_map]; rfl
      have hdw2 : ∀ (l : List Int) (n : Int), (l.map fun d => (d, A.zero)).dropWhile (fun e => e.1 < n) = (l.dropWhile (· < n)).map fun d => (d, A.zero) := by
        intro l n; rw [List.dropWhile_map]; rfl
      have hfr : ∀ (m : Move) (l : List Int), ∃ l' : List Int, m.from (l.map fun d => (d, ())) = l'.map (fun d => (d, ())) ∧ m.from (l.map fun d => (d, A.zero)) = l'.map (fun d => (d, A.zero)) := by
        intro m l
        cases m with
        | next => exact ⟨l, rfl, rfl⟩
        | skip n => exact ⟨l.dropWhile (· < n), hdw l n, hdw2 l n⟩
      have hw : ∀ (ms : List Move) (l : List Int) (c : Int), (ahead c (l.map fun d => (d, ())) ms → ahead c (l.map fun d => (d, A.zero)) ms) ∧
          (walkStop (l.map fun d => (d, ())) ms).map (Option.map (·.1)) = (walkStop (l.map fun d => (d, A.zero)) ms).map (Option.map (·.1)) := by
        intro ms
        induction ms with
        | nil => intro l c; exact ⟨fun _ => trivial, rfl⟩
        | cons m ms ih =>
          intro l c
          obtain ⟨l', e1, e2⟩ := hfr m l
          simp only [ahead, walkStop, e1, e2]
          cases l' with
          | nil => exact ⟨fun h => ⟨h.1, trivial⟩, rfl⟩
          | cons d l' =>
            refine ⟨fun h => ⟨h.1, (ih l' d).1 h.2⟩, ?_⟩
            simp only [List.map_cons, (ih l' c).2]
            rfl
      obtain ⟨out, o1, o2, _⟩ := runStop_spec g moves (full.map fun d => (d, A.zero)) hs.2 (view_skips hle _ hcf hn)
        (by rw [hmm]; exact f1) (by rw [hmm]; exact f2) (fun h => h.elim) ((hw _ full _).1 ha)
      exact ⟨out, o1, by rw [o2]; exact ((hw _ full 0).2).symm⟩

/-- `a (b -a)`: next, jump to 3 (scored), next. -/
example : (do
    let s ← Res.ofOption (mkScorer sampleIx.env 2 (.bool [(.should, .leaf 0), (.should, .bool [(.must, .leaf 1), (.mustNot, .leaf 0)])]))
    runStop (lvlOps natArith (leafOps (termOps natArith)) 2) s [(.next, false), (.skip 3, true), (.next, false), (.next, false)]) =
    .ok [some (1, none), some (7, some 1), some (10, none), none] := by decide
example : ahead (-1) [((1 : Int), ()), (7, ()), (10, ())] [.next, .skip 3, .next, .next] := by
  refine ⟨by simp, by simp, by simp, ?_⟩; simp [ahead, Move.from]

/-- `+a +b`: jumping a fresh scorer to document 2 visits document 10, which `b` does not
contain; stepping visits only document 1. -/
theorem c37_violated_conjunction : ∃ s, mkScorer sampleIx.env 1 (.bool [(.must, .leaf 0), (.must, .leaf 1)]) = some s ∧
    runStop (lvlOps natArith (leafOps (termOps natArith)) 1) s [(.skip 2, false)] = .ok [some (10, none)] ∧
    runStop (lvlOps natArith (leafOps (termOps natArith)) 1) s [(.next, false), (.next, false)] = .ok [some (1, none), none] :=
  ⟨_, rfl, by decide, by decide⟩

/-- The jump of the match-all scorer to a document before the current one goes back
(`masc_skip_to`, c/src/q_match_all.c:37-41), unlike that of other scorers; hence the restriction
to jumps past the current document. -/
theorem c37_match_all_goes_back :
    runStop (matchAllOps (S := Nat)) ⟨fun _ => false, 9, 1, -1⟩ [(.skip 5, false), (.skip 2, false)] = .ok [some (5, none), some (2, none)] := by
  decide

#print axioms c37_skip_consistent_partial
#print axioms c37_violated_conjunction
#print axioms c37_match_all_goes_back
end Ferret.Props
