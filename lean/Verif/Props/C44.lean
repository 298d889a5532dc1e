import Verif.Lemmas.EditDistance

/-! C44: fuzzy scores. -/

namespace Ferret.Props
open Ferret Ferret.Spec Ferret.Expand

/-- **C44.** The query term is `pre ++ text`, the term of the index `pre ++ target`; `maxd m` is the
greatest distance allowed for a target of length `m`. Then scoring is defined, and
* a score is 1 − d / k where `d` is the Levenshtein distance between the two terms and `k` the length
  of the shorter;
* it is 0 without being computed only if that distance exceeds the maximum, or if there is no common
  prefix to weigh against and one of the terms is empty. -/
theorem c44_fuzzy (maxd : Nat → Int) (pre text target : List Byte) :
    ∃ sc, fuzqScore maxd pre.length text target = .ok sc ∧
      (∀ d k, sc = .ratio d k → IsDistance (pre ++ target) (pre ++ text) d ∧ k = min (pre ++ text).length (pre ++ target).length) ∧
      (sc = .zero → (pre = [] ∧ (text = [] ∨ target = [])) ∨ ∀ d, IsDistance (pre ++ target) (pre ++ text) d → maxd target.length < d) := by
  have hdist : IsDistance (pre ++ target) (pre ++ text) (lev target text) := by
    have := lev_distance (pre ++ target) (pre ++ text)
    rwa [lev_prefix] at this
  unfold fuzqScore
  split
  · rename_i h0
    split
    · rename_i hp
      refine ⟨_, rfl, (fun d k e => nomatch e), fun _ => Or.inl ⟨List.length_eq_zero_iff.1 hp, ?_⟩⟩
      rcases h0 with h0 | h0
      · exact Or.inr (List.length_eq_zero_iff.1 h0)
      · exact Or.inl (List.length_eq_zero_iff.1 h0)
    · refine ⟨_, rfl, fun d k e => ?_, fun e => nomatch e⟩
      cases e
      have hl : target.length + text.length = lev target text := by
        rcases h0 with h0 | h0
        · rw [List.length_eq_zero_iff.1 h0]; simp [lev]
        · rw [List.length_eq_zero_iff.1 h0, lev_nil_right]; simp
      rw [hl]
      refine ⟨hdist, ?_⟩
      rw [List.length_append, List.length_append]
      omega
  · unfold scoreMN
    split
    · rename_i hm
      refine ⟨_, rfl, (fun d k e => nomatch e), fun _ => Or.inr fun d hd => ?_⟩
      rw [distance_unique hd hdist]
      have := lev_length target text
      omega
    · obtain ⟨r, hr, h1, h2⟩ := rows_spec text (maxd target.length) target []
      rw [rowOf_nil] at hr
      simp only [List.length_nil, Nat.add_zero, List.map_id'] at hr
      rw [hr, Res.ok_bind]
      rw [List.append_nil, lev_reverse] at h2
      cases r with
      | none =>
        refine ⟨_, rfl, (fun d k e => nomatch e), fun _ => Or.inr fun d hd => ?_⟩
        rw [distance_unique hd hdist]
        exact h2 rfl
      | some row =>
        have hrow := h1 row rfl
        have hlast := rowOf_last (target.reverse ++ []) text []
        rw [← hrow, List.append_nil, List.append_nil, lev_reverse] at hlast
        dsimp only
        rw [hlast]
        refine ⟨_, rfl, fun d k e => ?_, fun e => nomatch e⟩
        cases e
        refine ⟨hdist, ?_⟩
        rw [List.length_append, List.length_append]
        omega

/-- `kitten` and `sitting`: three edits; with a maximum of two the score is 0. -/
example : fuzqScore (fun _ => 3) 0 [107, 105, 116, 116, 101, 110] [115, 105, 116, 116, 105, 110, 103] = .ok (.ratio 3 6) ∧
    fuzqScore (fun _ => 2) 0 [107, 105, 116, 116, 101, 110] [115, 105, 116, 116, 105, 110, 103] = .ok .zero := by
  constructor <;> rfl

#print axioms c44_fuzzy
end Ferret.Props
