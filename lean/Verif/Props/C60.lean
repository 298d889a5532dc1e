import Verif.Props.C42

/-! C60: the boost of a query survives its rewriting. -/

namespace Ferret.Props
open Ferret Ferret.Spec Ferret.Expand

/-- The boost of what a query became. -/
def boostOf : Rewritten → Option Int
  | .term _ b => some b
  | .multi q => some q.boost
  | .nothing => none

/-- **C60 (partial).** Prefix queries, and wildcard queries whose pattern has no wildcard, keep their
boost. Other wildcard queries do not: `c60_wildcard_loses_boost`. -/
theorem c60_boost_kept_partial (terms : List Term) (hs : Sorted terms) (p : Term) (k : Nat) (hk : 0 < k) (boost : Int) :
    (∃ q, prqRewrite (some terms) p k boost = .ok q ∧ q.boost = boost) ∧
    ((∀ c ∈ p, c ≠ 63 ∧ c ≠ 42) → ∃ q, wcqRewrite (some terms) p k boost = .ok q ∧ boostOf q = some boost) := by
  constructor
  · obtain ⟨q, e, hb, -⟩ := c42_prefix terms hs p k hk boost
    exact ⟨q, e, hb⟩
  · intro h
    refine ⟨.term p boost, ?_, rfl⟩
    unfold wcqRewrite
    dsimp only
    rw [if_pos]
    have : ∀ l : List Byte, (∀ c ∈ l, c ≠ 63 ∧ c ≠ 42) → l.dropWhile (fun c => decide (c ≠ 63 ∧ c ≠ 42)) = [] := by
      intro l
      induction l with
      | nil => intro _; rfl
      | cons x l ih =>
        intro hl
        rw [List.dropWhile_cons_of_pos (p := fun c => decide (c ≠ 63 ∧ c ≠ 42)) (by simpa using hl x (List.mem_cons_self ..))]
        exact ih fun c hc => hl c (List.mem_cons_of_mem _ hc)
    exact this p h

/-- Whatever the boost of a wildcard query, it becomes a query of boost 1. -/
theorem c60_wildcard_loses_boost (terms : List Term) (hs : Sorted terms) (pattern : Term) (k : Nat) (hk : 0 < k) (boost : Int)
    (hlen : (pattern.takeWhile fun c => c ≠ 63 ∧ c ≠ 42).length < 255) (hwild : ∃ c ∈ pattern, c = 63 ∨ c = 42) :
    ∃ q, wcqRewrite (some terms) pattern k boost = .ok q ∧ boostOf q = some one := by
  have hne : pattern.dropWhile (fun c => decide (c ≠ 63 ∧ c ≠ 42)) ≠ [] := by
    intro e
    have hall : ∀ c ∈ pattern, (decide (c ≠ 63 ∧ c ≠ 42)) = true := by
      have h1 : pattern.takeWhile (fun c => decide (c ≠ 63 ∧ c ≠ 42)) ++ pattern.dropWhile (fun c => decide (c ≠ 63 ∧ c ≠ 42)) = pattern := List.takeWhile_append_dropWhile
      rw [e, List.append_nil] at h1
      have h2 : (pattern.takeWhile (fun c => decide (c ≠ 63 ∧ c ≠ 42))).all (fun c => decide (c ≠ 63 ∧ c ≠ 42)) = true := List.all_takeWhile
      rw [h1, List.all_eq_true] at h2
      exact h2
    obtain ⟨c, hc, h⟩ := hwild
    have := hall c hc
    rw [decide_eq_true_eq] at this
    rcases h with rfl | rfl
    · exact this.1 rfl
    · exact this.2 rfl
  unfold wcqRewrite
  dsimp only
  rw [if_neg hne]
  unfold mtqNew
  rw [if_neg (by omega)]
  simp only [Res.ok_bind]
  rw [if_neg (by omega), wcqLoop_eq]
  obtain ⟨q, rest, e, hb, -⟩ := addAll_kept hk (((((termsFrom terms (pattern.takeWhile fun c => decide (c ≠ 63 ∧ c ≠ 42))).headD [] :: (termsFrom terms (pattern.takeWhile fun c => decide (c ≠ 63 ∧ c ≠ 42))).tail).takeWhile fun t => strncmpEq t (pattern.takeWhile fun c => decide (c ≠ 63 ∧ c ≠ 42))).filter
      fun t => wcMatch (pattern.dropWhile fun c => decide (c ≠ 63 ∧ c ≠ 42)) (t.drop (pattern.takeWhile fun c => decide (c ≠ 63 ∧ c ≠ 42)).length)).map fun t => (t, one)) (mtqNew_kept hk 0 one)
  rw [e]
  exact ⟨.multi q, rfl, by rw [boostOf, hb]⟩

/-- The pattern `b*` with boost 2. -/
example : ∃ q, wcqRewrite (some [[97], [98, 97]]) [98, 42] 10 (2 * one) = .ok q ∧ boostOf q = some one ∧ one ≠ 2 * one := by
  refine ⟨_, rfl, by decide +kernel, by decide⟩

#print axioms c60_boost_kept_partial
#print axioms c60_wildcard_loses_boost
end Ferret.Props
