import Verif.Model.SpanMatch
import Verif.Spec.Span

/-! Marking the positions of terms that lie in ranges; the terms of a query. -/

namespace Ferret.Span

open Ferret.MV (MR MV mvAdd)
open Ferret.Spec

variable {T : Type} [DecidableEq T]

/-! ### The terms of a query -/

theorem addTerm_spec {l : List T} (h : l.Nodup) (t : T) : (addTerm l t).Nodup ∧ ∀ u, u ∈ addTerm l t ↔ u ∈ l ∨ u = t := by
  unfold addTerm
  by_cases ht : t ∈ l
  · rw [if_pos ht]
    exact ⟨h, fun u => ⟨.inl, fun h => h.elim id fun h => h ▸ ht⟩⟩
  · rw [if_neg ht]
    refine ⟨?_, fun u => by simp⟩
    rw [List.nodup_append]
    refine ⟨h, by simp, fun a ha b hb => ?_⟩
    rw [List.mem_singleton.1 hb]
    exact fun e => ht (e ▸ ha)

theorem mergeTerms_spec : ∀ (l' : List T) {l : List T}, l.Nodup → (mergeTerms l l').Nodup ∧ ∀ u, u ∈ mergeTerms l l' ↔ u ∈ l ∨ u ∈ l'
  | [], l, h => ⟨h, fun u => by simp [mergeTerms]⟩
  | t :: l', l, h => by
    obtain ⟨h1, h2⟩ := addTerm_spec h t
    obtain ⟨h3, h4⟩ := mergeTerms_spec l' h1
    refine ⟨h3, fun u => ?_⟩
    show u ∈ mergeTerms (addTerm l t) l' ↔ _
    rw [h4, h2, List.mem_cons, or_assoc]

mutual
theorem getTerms_spec : ∀ q : SpanQ T, (getTerms q).Nodup ∧ ∀ u, u ∈ getTerms q ↔ Mentions q u
  | .term t => by
    obtain ⟨h1, h2⟩ := addTerm_spec (l := []) .nil t
    simp only [getTerms, Mentions]
    exact ⟨h1, fun u => by rw [h2]; simp⟩
  | .multi ts => by
    obtain ⟨h1, h2⟩ := mergeTerms_spec ts (l := []) .nil
    simp only [getTerms, Mentions]
    exact ⟨h1, fun u => by rw [show (ts.foldl addTerm []) = mergeTerms [] ts from rfl, h2]; simp⟩
  | .first q _ => by
    simp only [getTerms, Mentions]
    exact getTerms_spec q
  | .or qs => by
    obtain ⟨h1, h2⟩ := allTerms_spec qs (l := []) .nil
    simp only [getTerms, Mentions]
    exact ⟨h1, fun u => by rw [h2]; simp⟩
  | .near qs _ _ => by
    obtain ⟨h1, h2⟩ := allTerms_spec qs (l := []) .nil
    simp only [getTerms, Mentions]
    exact ⟨h1, fun u => by rw [h2]; simp⟩
  | .not a _ => by
    simp only [getTerms, Mentions]
    exact getTerms_spec a

theorem allTerms_spec : ∀ (qs : List (SpanQ T)) {l : List T}, l.Nodup → (allTerms l qs).Nodup ∧ ∀ u, u ∈ allTerms l qs ↔ u ∈ l ∨ MentionsAny qs u
  | [], l, h => by simp only [allTerms, MentionsAny]; exact ⟨h, fun u => by simp⟩
  | q :: qs, l, h => by
    obtain ⟨_, h2⟩ := getTerms_spec q
    obtain ⟨h3, h4⟩ := mergeTerms_spec (getTerms q) h
    obtain ⟨h5, h6⟩ := allTerms_spec qs h3
    simp only [allTerms, MentionsAny]
    exact ⟨h5, fun u => by rw [h6, h4, h2, or_assoc]⟩
end

/-! ### Marking -/

/-- The position is in one of the ranges. -/
def inside (ms : List MR) (p : Int) : Bool := ms.any fun m => decide (m.start ≤ p ∧ p ≤ m.stop)

/-- The ranges are in order and apart. -/
def Apart (ms : List MR) : Prop := ms.Pairwise fun a b => a.stop < b.start

theorem advance_spec {full : MV} {p : Int} : ∀ (n i : Nat), full.size ≤ full.matches_.length → n = full.size - i →
    ∃ j b, advance full p n i = .ok (j, b) ∧ i ≤ j ∧ (∀ k m, i ≤ k → k < j → k < full.size → full.matches_[k]? = some m → m.stop < p) ∧
      (j < full.size → ∃ m, full.matches_[j]? = some m ∧ p ≤ m.stop ∧ (b = true ↔ m.start ≤ p)) ∧ (full.size ≤ j → b = false)
  | 0, i, hs, hn => ⟨i, false, rfl, Nat.le_refl _, fun k m h1 h2 => by omega, fun h => by omega, fun _ => rfl⟩
  | n + 1, i, hs, hn => by
    have hi : i < full.matches_.length := by omega
    unfold advance
    rw [List.getElem?_eq_getElem hi]
    simp only [Res.ofOption, Res.ok_bind]
    by_cases hp : p ≤ full.matches_[i].stop
    · rw [if_pos hp]
      exact ⟨i, _, rfl, Nat.le_refl _, fun k m h1 h2 => by omega, fun _ => ⟨_, List.getElem?_eq_getElem hi, hp, by simp⟩, fun h => by omega⟩
    · rw [if_neg hp]
      obtain ⟨j, b, h1, h2, h3, h4, h5⟩ := advance_spec (full := full) (p := p) n (i + 1) hs (by omega)
      refine ⟨j, b, h1, by omega, fun k m hk hkj hks hm => ?_, h4, h5⟩
      by_cases he : k = i
      · subst he
        rw [List.getElem?_eq_getElem hi, Option.some.injEq] at hm
        subst hm; omega
      · exact h3 k m (by omega) hkj hks hm

/-- A position among ranges that are apart, none of those before `j` reaching it. -/
theorem inside_at {ms : List MR} (h : Apart ms) {p : Int} {j : Nat} (hb : ∀ k m, k < j → ms[k]? = some m → m.stop < p) :
    (∀ m, ms[j]? = some m → p ≤ m.stop → (inside ms p = true ↔ m.start ≤ p)) ∧ (ms.length ≤ j → inside ms p = false) := by
  refine ⟨fun m hm hp => ?_, fun hj => ?_⟩
  · constructor
    · intro hin
      obtain ⟨x, hx, hx2⟩ := List.any_eq_true.1 hin
      have hx2 := of_decide_eq_true hx2
      obtain ⟨k, hk⟩ := List.mem_iff_getElem?.1 hx
      rcases Nat.lt_trichotomy k j with h1 | h1 | h1
      · have := hb k x h1 hk; omega
      · subst h1; rw [hm, Option.some.injEq] at hk; subst hk; exact hx2.1
      · obtain ⟨hj', e1⟩ := List.getElem?_eq_some_iff.1 hm
        obtain ⟨hk', e2⟩ := List.getElem?_eq_some_iff.1 hk
        have := (List.pairwise_iff_getElem.1 h) j k hj' hk' h1
        rw [e1, e2] at this; omega
    · intro hs
      exact List.any_eq_true.2 ⟨m, List.mem_iff_getElem?.2 ⟨j, hm⟩, decide_eq_true ⟨hs, hp⟩⟩
  · cases hin : inside ms p with
    | false => rfl
    | true =>
      obtain ⟨x, hx, hx2⟩ := List.any_eq_true.1 hin
      have hx2 := of_decide_eq_true hx2
      obtain ⟨k, hk⟩ := List.mem_iff_getElem?.1 hx
      obtain ⟨hk', _⟩ := List.getElem?_eq_some_iff.1 hk
      have := hb k x (by omega) hk; omega

/-- The vector with these positions added. -/
def marked (mv : MV) (ps : List Int) : MV := ⟨mv.matches_ ++ ps.map (fun p => ⟨p, p, 1⟩), mv.size + ps.length⟩

theorem marked_nil (mv : MV) : marked mv [] = mv := by simp [marked]

theorem marked_append (mv : MV) (a b : List Int) : marked (marked mv a) b = marked mv (a ++ b) := by
  simp [marked, Nat.add_assoc]

theorem mvAdd_eq (mv : MV) (p : Int) : mvAdd mv p p = marked mv [p] := rfl

variable {full : MV}

theorem take_get {k : Nat} (h : k < full.size) : (full.matches_.take full.size)[k]? = full.matches_[k]? := by
  rw [List.getElem?_take, if_pos h]

theorem markTerm_spec (hs : full.size ≤ full.matches_.length) (ha : Apart (full.matches_.take full.size)) :
    ∀ (ps : List Int) (i : Nat) (mv : MV), ps.Pairwise (· < ·) →
      (∀ p ∈ ps, ∀ k m, k < i → k < full.size → full.matches_[k]? = some m → m.stop < p) →
      markTerm full ps i mv = .ok (marked mv (ps.filter (inside (full.matches_.take full.size))))
  | [], i, mv, _, _ => by rw [List.filter_nil, marked_nil]; rfl
  | p :: ps, i, mv, hp, hi => by
    obtain ⟨j, b, h1, h2, h3, h4, h5⟩ := advance_spec (full := full) (p := p) _ i hs rfl
    have hlen : (full.matches_.take full.size).length = full.size := by simp; omega
    have hb : ∀ k m, k < j → (full.matches_.take full.size)[k]? = some m → m.stop < p := by
      intro k m hk hm
      have hk2 : k < full.size := by have := (List.getElem?_eq_some_iff.1 hm).1; omega
      rw [take_get hk2] at hm
      by_cases hki : k < i
      · exact hi p (List.mem_cons_self ..) k m hki hk2 hm
      · exact h3 k m (by omega) hk hk2 hm
    obtain ⟨i1, i2⟩ := inside_at ha hb
    have hin : b = inside (full.matches_.take full.size) p := by
      by_cases hj : j < full.size
      · obtain ⟨m, h6, h7, h8⟩ := h4 hj
        have := i1 m (by rw [take_get hj]; exact h6) h7
        rw [Bool.eq_iff_iff, h8, this]
      · rw [h5 (by omega), i2 (by omega)]
    have hp' := List.pairwise_cons.1 hp
    unfold markTerm
    rw [h1, Res.ok_bind]
    dsimp only
    rw [markTerm_spec hs ha ps j _ hp'.2 fun q hq k m hk hks hm => by
      have := hb k m hk (by rw [take_get hks]; exact hm)
      have := hp'.1 q hq
      omega]
    rw [List.filter_cons, hin]
    by_cases h : inside (full.matches_.take full.size) p = true
    · rw [h, if_pos rfl, if_pos rfl, mvAdd_eq, marked_append]; rfl
    · rw [Bool.not_eq_true] at h
      rw [h]; rfl

variable {tv : T → Option (List Int)}

theorem mvToTermMv_spec (hs : full.size ≤ full.matches_.length) (ha : Apart (full.matches_.take full.size)) (hv : VectorOK tv) :
    ∀ (ts : List T) (mv : MV), mvToTermMv full tv ts mv =
      .ok (marked mv (ts.flatMap fun t => ((tv t).getD []).filter (inside (full.matches_.take full.size))))
  | [], mv => by rw [List.flatMap_nil, marked_nil]; rfl
  | t :: ts, mv => by
    unfold mvToTermMv
    rw [List.flatMap_cons, ← marked_append]
    cases h : tv t with
    | none =>
      dsimp only
      rw [mvToTermMv_spec hs ha hv ts mv]
      simp [marked_nil]
    | some ps =>
      dsimp only
      rw [markTerm_spec hs ha ps 0 mv (hv t ps h).2.1 (fun _ _ k _ hk => by omega), Res.ok_bind, mvToTermMv_spec hs ha hv ts]
      rfl

/-- One range, never written: reading it is undefined as soon as a term is in the vector. -/
theorem mvToTermMv_none (hv : VectorOK tv) : ∀ (ts : List T) (mv : MV),
    mvToTermMv ⟨[], 1⟩ tv ts mv = if ∃ t ∈ ts, (tv t).isSome then .ub else .ok mv
  | [], mv => by rw [if_neg (by simp)]; rfl
  | t :: ts, mv => by
    unfold mvToTermMv
    cases h : tv t with
    | none =>
      dsimp only
      rw [mvToTermMv_none hv ts mv]
      simp [h]
    | some ps =>
      dsimp only
      rw [if_pos ⟨t, by simp, by rw [h]; rfl⟩]
      cases ps with
      | nil => exact absurd rfl (hv t [] h).1
      | cons p ps => rfl

end Ferret.Span
