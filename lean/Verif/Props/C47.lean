import Verif.Lemmas.MatchVector

/-!
C47: compacting a list of match ranges yields sorted disjoint ranges covering exactly the same positions.
-/

namespace Ferret.Props
open Ferret Ferret.Spec Ferret.MV

/-- A match vector to which ranges were added. -/
def addedRanges (rs : List (Int × Int)) : MV := rs.foldl (fun mv r => mvAdd mv r.1 r.2) mvNew

/-- The array after `qsort` is any rearrangement of the ranges that is sorted by the comparison. -/
structure SortedTo (mv : MV) (s : List MR) : Prop where
  perm : s.Perm mv.matches_
  sorted : s.Pairwise fun a b => cmp a b ≤ 0

theorem addedRanges_aux : ∀ (rs : List (Int × Int)) (mv : MV),
    rs.foldl (fun mv r => mvAdd mv r.1 r.2) mv = ⟨mv.matches_ ++ rs.map (fun r => ⟨r.1, r.2, 1⟩), mv.size + rs.length⟩ := by
  intro rs
  induction rs with
  | nil => intro mv; simp
  | cons r rs ih => intro mv; rw [List.foldl_cons, ih]; simp [mvAdd, Nat.add_assoc, Nat.add_comm 1]

theorem addedRanges_eq (rs : List (Int × Int)) : addedRanges rs = ⟨rs.map (fun r => ⟨r.1, r.2, 1⟩), rs.length⟩ := by
  unfold addedRanges; rw [addedRanges_aux]; simp [mvNew]

theorem perm_sum {a b : List Int} (h : a.Perm b) : a.sum = b.sum := by
  induction h with
  | nil => rfl
  | cons x _ ih => simp [ih]
  | swap x y l => simp only [List.sum_cons]; omega
  | trans _ _ ih1 ih2 => rw [ih1, ih2]

/-- What was added, as the specification sees it. -/
def asAdded (rs : List (Int × Int)) : List Range := rs.map fun r => (r, 1)

theorem compact_pure {body : List MR → Nat → Nat → Res (List MR × Nat)} {gap : Int} {merge : MR → MR → MR} (hb : BodyIs body gap merge)
    {s₀ : MR} {s : List MR} {s₀' : MR} (hfirst : body (s₀ :: s) 0 0 = .ok (s₀' :: s, 0)) :
    ∃ m left, compactLoop body (s₀ :: s).length 0 (s₀ :: s) 0 = .ok (m, left) ∧ left + 1 ≤ m.length ∧
      m.take (left + 1) = pureLoop gap merge [] s₀' s := by
  simp only [List.length_cons, compactLoop]
  rw [hfirst, Res.ok_bind]
  obtain ⟨m, left, e1, e2, _, e4⟩ := loop_pure hb s [] s₀' (s₀' :: s) 0 1 (by omega) rfl rfl rfl (by simp)
  exact ⟨m, left, e1, e2, e4⟩

theorem compact_result {rs : List (Int × Int)} (hne : rs ≠ []) (hfine : ∀ r ∈ rs, r.1 ≤ r.2) {s : List MR} (hs : SortedTo (addedRanges rs) s)
    {body : List MR → Nat → Nat → Res (List MR × Nat)} {gap : Int} {merge : MR → MR → MR} (hb : BodyIs body gap merge)
    (h0 : 0 ≤ gap) (h1 : gap ≤ 1) (hm : ∀ l r, (merge l r).start = l.start ∧ (merge l r).stop = max l.stop r.stop)
    (hfirst : ∀ (s₀ : MR) (s : List MR), s₀.start ≤ s₀.stop →
      ∃ s₀', body (s₀ :: s) 0 0 = .ok (s₀' :: s, 0) ∧ s₀'.start = s₀.start ∧ s₀'.stop = s₀.stop) :
    ∃ m left, compactLoop body (addedRanges rs).size 0 s 0 = .ok (m, left) ∧ left + 1 ≤ m.length ∧
      apart gap ((m.take (left + 1)).map MR.view) ∧ (∀ r ∈ (m.take (left + 1)).map MR.view, r.1.1 ≤ r.1.2) ∧
      ∀ p, coveredBy ((m.take (left + 1)).map MR.view) p ↔ coveredBy (asAdded rs) p := by
  rw [addedRanges_eq] at hs ⊢
  have hlen : rs.length = s.length := by have := hs.perm.length_eq; simpa using this.symm
  have hmem : ∀ x : MR, x ∈ s ↔ x ∈ rs.map (fun r => (⟨r.1, r.2, 1⟩ : MR)) := fun x => hs.perm.mem_iff
  have hsf : ∀ x ∈ s, x.start ≤ x.stop := by
    intro x hx
    obtain ⟨r, hr, e⟩ := List.mem_map.1 ((hmem x).1 hx)
    subst e
    exact hfine r hr
  cases s with
  | nil => simp at hlen; exact absurd hlen hne
  | cons s₀ s =>
    obtain ⟨s₀', f1, f2, f3⟩ := hfirst s₀ s (hsf s₀ (by simp))
    obtain ⟨m, left, e1, e2, e3⟩ := compact_pure hb f1
    have hso := List.pairwise_cons.1 hs.sorted
    have hs0 := hsf s₀ (by simp)
    obtain ⟨done, cur, p1, p2⟩ := pureLoop_covers h0 h1 hm s [s₀] [] s₀'
      ⟨by simp [f2, f3, hs0], by simp, by intro p; simp [f2, f3]⟩ (fun r hr => hsf r (by simp [hr]))
      (fun r hr => by rw [f2]; exact Sorted.start (hso.1 r hr)) (hso.2.imp fun h => Sorted.start h)
    refine ⟨m, left, by simpa only [hlen] using e1, e2, ?_, ?_, ?_⟩
    · rw [e3, p1]
      unfold apart
      rw [List.pairwise_map]
      exact p2.apart
    · rw [e3, p1]
      intro r hr
      obtain ⟨x, hx, e⟩ := List.mem_map.1 hr
      subst e
      exact p2.fine x hx
    · intro p
      rw [e3, p1]
      have hcov := p2.covers p
      constructor
      · rintro ⟨r, hr, hp⟩
        obtain ⟨x, hx, e⟩ := List.mem_map.1 hr
        subst e
        obtain ⟨y, hy, hyp⟩ := hcov.1 ⟨x, hx, hp⟩
        obtain ⟨q, hq, e⟩ := List.mem_map.1 ((hmem y).1 (by simpa using hy))
        subst e
        exact ⟨(q, 1), List.mem_map.2 ⟨q, hq, rfl⟩, hyp⟩
      · rintro ⟨r, hr, hp⟩
        obtain ⟨q, hq, e⟩ := List.mem_map.1 hr
        subst e
        have hy := (hmem ⟨q.1, q.2, 1⟩).2 (List.mem_map.2 ⟨q, hq, rfl⟩)
        obtain ⟨x, hx, hxp⟩ := hcov.2 ⟨⟨q.1, q.2, 1⟩, by simpa using hy, hp⟩
        exact ⟨x.view, List.mem_map.2 ⟨x, hx, rfl⟩, hxp⟩

/-- Whatever ranges were added, at least one, each with its end no earlier than its start, and however they
were sorted: compacting gives ranges in order, none empty, with at least one position between one and the
next, that cover exactly the positions the ranges added cover.

It does not say what the scores are, nor anything of no ranges: see `C47_compact_none` and
`C47_compact_scores`. -/
theorem C47_compact_partial (rs : List (Int × Int)) (hne : rs ≠ []) (hfine : ∀ r ∈ rs, r.1 ≤ r.2) (s : List MR)
    (hs : SortedTo (addedRanges rs) s) :
    ∃ mv out, compact { addedRanges rs with matches_ := s } = .ok mv ∧ ranges mv = .ok out ∧
      apart 1 (out.map MR.view) ∧ (∀ r ∈ out.map MR.view, r.1.1 ≤ r.1.2) ∧
      ∀ p, coveredBy (out.map MR.view) p ↔ coveredBy (asAdded rs) p := by
  obtain ⟨m, left, e1, e2, e3⟩ := compact_result hne hfine hs compactBody_is (by omega) (by omega)
    (by intro l r; unfold mergeCompact; split <;> simp <;> omega)
    (by
      intro s₀ s h
      refine ⟨{ s₀ with score := s₀.score + s₀.score }, ?_, rfl, rfl⟩
      simp [compactBody, Res.ofOption, show ¬ s₀.stop + 1 < s₀.start by omega])
  refine ⟨⟨m, left + 1⟩, m.take (left + 1), ?_, if_pos e2, e3⟩
  show (compactLoop compactBody (addedRanges rs).size 0 s 0 >>= _) = _
  rw [e1]; rfl

/-- The same of compacting with breaks, where ranges that only touch stay apart; and the score of each range
is the number of ranges added that start within it. -/
theorem C47_breaks_partial (rs : List (Int × Int)) (hne : rs ≠ []) (hfine : ∀ r ∈ rs, r.1 ≤ r.2) (s : List MR)
    (hs : SortedTo (addedRanges rs) s) :
    ∃ mv out, compactWithBreaks { addedRanges rs with matches_ := s } = .ok mv ∧ ranges mv = .ok out ∧
      apart 0 (out.map MR.view) ∧ (∀ r ∈ out.map MR.view, r.1.1 ≤ r.1.2) ∧
      (∀ p, coveredBy (out.map MR.view) p ↔ coveredBy (asAdded rs) p) ∧
      ∀ r ∈ out.map MR.view, r.2 = scoreWithin (asAdded rs) r := by
  have hfirst : ∀ (s₀ : MR) (s : List MR), s₀.start ≤ s₀.stop → breaksBody (s₀ :: s) 0 0 = .ok (s₀ :: s, 0) := by
    intro s₀ s h
    simp [breaksBody, Res.ofOption, show ¬ s₀.stop < s₀.start by omega]
  have hm : ∀ l r, (mergeBreaks l r).start = l.start ∧ (mergeBreaks l r).stop = max l.stop r.stop := fun l r => ⟨rfl, rfl⟩
  obtain ⟨m, left, e1, e2, e3, e4, e5⟩ := compact_result hne hfine hs breaksBody_is (by omega) (by omega) hm
    (fun s₀ s h => ⟨s₀, hfirst s₀ s h, rfl, rfl⟩)
  refine ⟨⟨m, left + 1⟩, m.take (left + 1), ?_, if_pos e2, e3, e4, e5, ?_⟩
  · show (compactLoop breaksBody (addedRanges rs).size 0 s 0 >>= _) = _
    rw [e1]; rfl
  · rw [addedRanges_eq] at hs e1
    have hmem : ∀ x : MR, x ∈ s ↔ x ∈ rs.map (fun r => (⟨r.1, r.2, 1⟩ : MR)) := fun x => hs.perm.mem_iff
    have hsf : ∀ x ∈ s, x.start ≤ x.stop := by
      intro x hx
      obtain ⟨r, hr, e⟩ := List.mem_map.1 ((hmem x).1 hx)
      subst e
      exact hfine r hr
    have hlen : rs.length = s.length := by have := hs.perm.length_eq; simpa using this.symm
    cases s with
    | nil => simp at hlen; exact absurd hlen hne
    | cons s₀ s =>
      have hs0 := hsf s₀ (by simp)
      obtain ⟨m', left', f1, f2, f3⟩ := compact_pure breaksBody_is (hfirst s₀ s hs0)
      simp only [hlen] at e1
      rw [e1] at f1
      simp only [Res.ok.injEq, Prod.mk.injEq] at f1
      obtain ⟨rfl, rfl⟩ := f1
      rw [f3]
      have hso := List.pairwise_cons.1 hs.sorted
      intro r hr
      obtain ⟨x, hx, e⟩ := List.mem_map.1 hr
      subst e
      have := pureLoop_scores s [s₀] [] s₀ ⟨by simp [hs0], by simp, by intro p; simp⟩ (fun r hr => hsf r (by simp [hr]))
        (fun r hr => Sorted.start (hso.1 r hr)) (hso.2.imp fun h => Sorted.start h) (by simpa using hs0)
        (by simp [hs0]) x hx
      show x.score = _
      rw [this]
      unfold scoreWithin asAdded
      have hp : (((s₀ :: s).filter fun y => decide (x.start ≤ y.start) && decide (y.start ≤ x.stop)).map (·.score)).Perm
          (((rs.map (fun r => (⟨r.1, r.2, 1⟩ : MR))).filter fun y => decide (x.start ≤ y.start) && decide (y.start ≤ x.stop)).map (·.score)) :=
        (hs.perm.filter _).map _
      rw [List.singleton_append, perm_sum hp]
      simp only [List.filter_map, List.map_map]
      rfl

/-- Every list of ranges can be sorted so. -/
example : SortedTo (addedRanges [(3, 4), (0, 1), (2, 2), (8, 9), (0, 5)])
    [⟨0, 5, 1⟩, ⟨0, 1, 1⟩, ⟨2, 2, 1⟩, ⟨3, 4, 1⟩, ⟨8, 9, 1⟩] := ⟨by decide, by decide⟩

example : ∃ mv out, compact { addedRanges [(3, 4), (0, 1), (8, 9)] with matches_ := [⟨0, 1, 1⟩, ⟨3, 4, 1⟩, ⟨8, 9, 1⟩] } = .ok mv ∧ ranges mv = .ok out ∧
      apart 1 (out.map MR.view) ∧ (∀ r ∈ out.map MR.view, r.1.1 ≤ r.1.2) ∧
      ∀ p, coveredBy (out.map MR.view) p ↔ coveredBy (asAdded [(3, 4), (0, 1), (8, 9)]) p :=
  C47_compact_partial _ (by decide) (by decide) _ ⟨by decide, by decide⟩

example : ∃ mv out, compactWithBreaks { addedRanges [(3, 4), (0, 1), (1, 3)] with matches_ := [⟨0, 1, 1⟩, ⟨1, 3, 1⟩, ⟨3, 4, 1⟩] } = .ok mv ∧ ranges mv = .ok out ∧
      apart 0 (out.map MR.view) ∧ (∀ r ∈ out.map MR.view, r.1.1 ≤ r.1.2) ∧
      (∀ p, coveredBy (out.map MR.view) p ↔ coveredBy (asAdded [(3, 4), (0, 1), (1, 3)]) p) ∧
      ∀ r ∈ out.map MR.view, r.2 = scoreWithin (asAdded [(3, 4), (0, 1), (1, 3)]) r :=
  C47_breaks_partial _ (by decide) (by decide) _ ⟨by decide, by decide⟩

/-- No ranges: compacting says there is one, and reading it reads memory never written. -/
theorem C47_compact_none :
    compact mvNew = .ok ⟨[], 1⟩ ∧ compactWithBreaks mvNew = .ok ⟨[], 1⟩ ∧ ranges ⟨[], 1⟩ = .ub := ⟨rfl, rfl, rfl⟩

/-- Compacting counts the first range twice, and does not count a range that makes another longer. -/
theorem C47_compact_scores :
    (compact (addedRanges [(0, 0)]) >>= ranges) = .ok [⟨0, 0, 2⟩] ∧
    (compact (addedRanges [(0, 0), (5, 6), (6, 7), (7, 8)]) >>= ranges) = .ok [⟨0, 0, 2⟩, ⟨5, 8, 1⟩] := ⟨rfl, rfl⟩

#print axioms C47_compact_partial
#print axioms C47_breaks_partial
#print axioms C47_compact_none
#print axioms C47_compact_scores
end Ferret.Props
