import Verif.Lemmas.MarksTv
import Verif.Lemmas.PriorityQueue

/-! The positions of one part of a phrase. -/

namespace Ferret.Marks

open Ferret.Spec
open Ferret.Expand (Term)

/-- On a position. -/
structure On (t : Tvpe) : Prop where
  seen : 0 < t.seen
  here : t.positions[t.seen - 1]? = some (t.pos + t.offset)
  asc : t.positions.Pairwise (· ≤ ·)

/-- The positions from the current one on, moved back by the offset. -/
def rem (t : Tvpe) : List Int := (t.positions.drop (t.seen - 1)).map (· - t.offset)

/-- The positions after the current one, moved back by the offset. -/
def rest (t : Tvpe) : List Int := (t.positions.drop t.seen).map (· - t.offset)

theorem On.rem_eq {t : Tvpe} (h : On t) : rem t = t.pos :: rest t := by
  obtain ⟨h1, h2, _⟩ := h
  obtain ⟨hlt, he⟩ := List.getElem?_eq_some_iff.1 h2
  unfold rem rest
  rw [List.drop_eq_getElem_cons hlt, he, List.map_cons, show t.seen - 1 + 1 = t.seen by omega]
  congr 1
  omega

theorem map_sub_asc {l : List Int} (h : l.Pairwise (· ≤ ·)) (k : Int) : (l.map (· - k)).Pairwise (· ≤ ·) := by
  rw [List.pairwise_map]
  exact h.imp (by intro a b hab; omega)

theorem On.rem_asc {t : Tvpe} (h : On t) : (rem t).Pairwise (· ≤ ·) := map_sub_asc (h.asc.sublist (List.drop_sublist ..)) _

theorem On.le_rem {t : Tvpe} (h : On t) {p : Int} (hp : p ∈ rem t) : t.pos ≤ p := by
  have h1 := h.rem_asc
  rw [h.rem_eq] at h1 hp
  rcases List.mem_cons.1 hp with rfl | hp
  · omega
  · exact (List.pairwise_cons.1 h1).1 p hp

theorem On.lt {t : Tvpe} (h : On t) : t.seen ≤ t.positions.length := by
  have := (List.getElem?_eq_some_iff.1 h.here).1
  have := h.seen
  omega

theorem mem_rem {t : Tvpe} {p : Int} (h : p ∈ rem t) : p + t.offset ∈ t.positions := by
  obtain ⟨q, hq, rfl⟩ := List.mem_map.1 h
  have := List.mem_of_mem_drop hq
  rw [show q - t.offset + t.offset = q by omega]
  exact this

theorem On.pos_mem {t : Tvpe} (h : On t) : t.pos ∈ rem t := by rw [h.rem_eq]; exact List.mem_cons_self ..

/-- Nothing but the place has changed. -/
def SameList (t t' : Tvpe) : Prop := t'.positions = t.positions ∧ t'.offset = t.offset

theorem next_spec {t : Tvpe} (hasc : t.positions.Pairwise (· ≤ ·)) :
    (∃ t', tvpeNext t = (true, t') ∧ On t' ∧ SameList t t' ∧ rem t' = rest t ∧ t'.seen = t.seen + 1) ∨
    (∃ t', tvpeNext t = (false, t') ∧ rest t = [] ∧ SameList t t' ∧ t'.pos = -1) := by
  unfold tvpeNext
  cases hp : t.positions[t.seen]? with
  | some p =>
    left
    refine ⟨_, rfl, ⟨by simp, ?_, hasc⟩, ⟨rfl, rfl⟩, by simp [rem, rest], rfl⟩
    simp only [Nat.add_sub_cancel]
    rw [hp, show p - t.offset + t.offset = p by omega]
  | none =>
    right
    refine ⟨_, rfl, ?_, ⟨rfl, rfl⟩, rfl⟩
    rw [rest, List.drop_eq_nil_of_le (List.getElem?_eq_none_iff.1 hp)]
    rfl

theorem skipGo_spec (target : Int) : ∀ (l : List Int) (i : Nat), l.Pairwise (· ≤ ·) →
    (∃ k p, skipGo target l i = some (i + k, p) ∧ l[k]? = some p ∧ target ≤ p ∧ ∀ q ∈ l, target ≤ q → q ∈ l.drop k) ∨
    (skipGo target l i = none ∧ ∀ q ∈ l, q < target)
  | [], i, _ => Or.inr ⟨rfl, (fun q hq => by cases hq)⟩
  | p :: l, i, h => by
    rw [skipGo]
    by_cases hp : p ≥ target
    · rw [if_pos hp]
      exact Or.inl ⟨0, p, rfl, rfl, hp, fun q hq _ => hq⟩
    · rw [if_neg hp]
      rcases skipGo_spec target l (i + 1) (List.pairwise_cons.1 h).2 with ⟨k, q, h1, h2, h3, h4⟩ | ⟨h1, h2⟩
      · left
        refine ⟨k + 1, q, by rw [h1]; congr 2; omega, by simpa using h2, h3, fun x hx hle => ?_⟩
        rcases List.mem_cons.1 hx with rfl | hx
        · omega
        · simpa using h4 x hx hle
      · right
        refine ⟨h1, fun x hx => ?_⟩
        rcases List.mem_cons.1 hx with rfl | hx
        · omega
        · exact h2 x hx

theorem skipTo_spec {t : Tvpe} (hasc : t.positions.Pairwise (· ≤ ·)) (target : Int) :
    (∃ t', tvpeSkipTo t target = (true, t') ∧ On t' ∧ SameList t t' ∧ target ≤ t'.pos ∧ t.seen < t'.seen ∧ (∀ q ∈ rem t', q ∈ rest t) ∧ ∀ q ∈ rest t, target ≤ q → q ∈ rem t') ∨
    (∃ t', tvpeSkipTo t target = (false, t') ∧ ∀ q ∈ rest t, q < target) := by
  unfold tvpeSkipTo
  rcases skipGo_spec (target + t.offset) (t.positions.drop t.seen) t.seen (hasc.sublist (List.drop_sublist ..)) with ⟨k, p, h1, h2, h3, h4⟩ | ⟨h1, h2⟩
  · left
    rw [h1]
    have hdrop : t.positions.drop (t.seen + k) = (t.positions.drop t.seen).drop k := by rw [List.drop_drop]
    refine ⟨_, rfl, ⟨by simp, ?_, hasc⟩, ⟨rfl, rfl⟩, by simp only; omega, by simp only; omega, ?_, ?_⟩
    · simp only [Nat.add_sub_cancel]
      rw [List.getElem?_drop] at h2
      rw [h2, show p - t.offset + t.offset = p by omega]
    · intro q hq
      unfold rem rest at *
      simp only [Nat.add_sub_cancel] at hq
      rw [hdrop] at hq
      obtain ⟨x, hx, rfl⟩ := List.mem_map.1 hq
      exact List.mem_map.2 ⟨x, List.mem_of_mem_drop hx, rfl⟩
    · intro q hq hle
      unfold rem rest at *
      simp only [Nat.add_sub_cancel]
      rw [hdrop]
      obtain ⟨x, hx, rfl⟩ := List.mem_map.1 hq
      exact List.mem_map.2 ⟨x, h4 x hx (by omega), rfl⟩
  · right
    rw [h1]
    refine ⟨_, rfl, fun q hq => ?_⟩
    obtain ⟨x, hx, rfl⟩ := List.mem_map.1 hq
    have := h2 x hx
    omega

/-! ### Merging the positions of several terms -/

theorem tvpeLt_strictWeak : StrictWeak tvpeLt where
  asymm a b h := by unfold tvpeLt at *; simp only [decide_eq_true_eq, decide_eq_false_iff_not] at *; omega
  negTrans a b c h1 h2 := by unfold tvpeLt at *; simp only [decide_eq_false_iff_not] at *; omega

theorem down_top {lt : Tvpe → Tvpe → Bool} (hlt : StrictWeak lt) {x y : Tvpe} {l : List Tvpe} (h : PQ.IsHeap lt (x :: l)) :
    ∃ r, PQ.down lt (y :: l) = .ok r ∧ PQ.IsHeap lt r ∧ r.Perm (y :: l) := by
  apply PQ.down_spec hlt
  intro k a b hk ha hb
  have hat : ∀ j, 2 ≤ j → PQ.at? (y :: l) j = PQ.at? (x :: l) j := by
    intro j hj
    unfold PQ.at?
    obtain ⟨m, rfl⟩ : ∃ m, j = m + 2 := ⟨j - 2, by omega⟩
    simp
  rw [hat k (by omega)] at ha
  rw [hat (k / 2) (by omega)] at hb
  exact h k a b (by omega) ha hb

/-- The number of positions that are left. -/
def remSum (h : List Tvpe) : Nat := (h.map fun t => (rem t).length).sum

theorem remSum_perm {a b : List Tvpe} (h : a.Perm b) : remSum a = remSum b := (h.map _).sum_nat

theorem mergeGo_spec (total : Nat) : ∀ (fuel : Nat) (q : PQ.PQ Tvpe) (out : List Int), PQ.Inv tvpeLt q → (∀ t ∈ q.heap, On t ∧ t.offset = 0) →
    out.length + remSum q.heap = total → remSum q.heap < fuel → out.Pairwise (· ≤ ·) → (∀ p ∈ out, ∀ t ∈ q.heap, p ≤ t.pos) →
    ∃ ps, mergeGo total fuel q out = .ok ps ∧ ps.Pairwise (· ≤ ·) ∧ ∀ p, p ∈ ps ↔ p ∈ out ∨ ∃ t ∈ q.heap, p ∈ rem t := by
  intro fuel
  induction fuel with
  | zero => intro q out _ _ _ h; omega
  | succ n ih =>
    intro q out hinv hon htot hfuel hasc hle
    rw [mergeGo]
    cases hh : q.heap with
    | nil => exact ⟨out, rfl, hasc, fun p => by simp⟩
    | cons top l =>
      simp only
      have htop := hon top (by rw [hh]; exact List.mem_cons_self ..)
      have hmin : ∀ t ∈ q.heap, top.pos ≤ t.pos := by
        intro t ht
        have := PQ.heap_top_min tvpeLt_strictWeak hinv.heap top (by rw [hh]; rfl) t ht
        simp only [tvpeLt, decide_eq_false_iff_not] at this
        omega
      have hrs : remSum q.heap = (rem top).length + remSum l := by rw [hh]; simp [remSum]
      have hrl : (rem top).length = (rest top).length + 1 := by rw [htop.1.rem_eq]; rfl
      rw [if_neg (by omega)]
      have hasc' : (out ++ [top.pos]).Pairwise (· ≤ ·) := by
        rw [List.pairwise_append]
        exact ⟨hasc, List.pairwise_singleton .., fun p hp x hx => by rw [List.mem_singleton.1 hx]; exact hle p hp top (by rw [hh]; exact List.mem_cons_self ..)⟩
      rcases next_spec htop.1.asc with ⟨t', h1, h2, h3, h4, _⟩ | ⟨t', h1, h2, _⟩
      · rw [h1]
        simp only [Bool.true_eq_false, if_false]
        obtain ⟨r, d1, d2, d3⟩ := down_top tvpeLt_strictWeak (y := t') (by rw [← hh]; exact hinv.heap)
        rw [d1, Res.ok_bind]
        have hrs' : remSum r = (rest top).length + remSum l := by rw [remSum_perm d3, remSum, List.map_cons, List.sum_cons, h4]; rfl
        have hon' : ∀ t ∈ r, On t ∧ t.offset = 0 := by
          intro t ht
          rcases List.mem_cons.1 (d3.mem_iff.1 ht) with rfl | ht
          · exact ⟨h2, by rw [h3.2]; exact htop.2⟩
          · exact hon t (by rw [hh]; exact List.mem_cons_of_mem _ ht)
        have hlt' : top.pos ≤ t'.pos := by
          apply htop.1.le_rem
          rw [htop.1.rem_eq, ← h4]
          exact List.mem_cons_of_mem _ h2.pos_mem
        obtain ⟨ps, g1, g2, g3⟩ := ih { q with heap := r } (out ++ [top.pos]) ⟨d2, by
            simp only; rw [d3.length_eq]; have := hinv.mem; rw [hh] at this; simpa using this⟩ hon'
          (by simp only [List.length_append, List.length_singleton]; omega) (by simp only; omega) hasc' (by
            intro p hp t ht
            have hpt : p ≤ top.pos := by
              rcases List.mem_append.1 hp with hp | hp
              · exact hle p hp top (by rw [hh]; exact List.mem_cons_self ..)
              · rw [List.mem_singleton.1 hp]; omega
            rcases List.mem_cons.1 (d3.mem_iff.1 ht) with rfl | ht
            · omega
            · have := hmin t (by rw [hh]; exact List.mem_cons_of_mem _ ht); omega)
        refine ⟨ps, g1, g2, fun p => ?_⟩
        rw [g3, List.mem_append, List.mem_singleton]
        constructor
        · rintro ((hp | rfl) | ⟨t, ht, hp⟩)
          · exact Or.inl hp
          · exact Or.inr ⟨top, List.mem_cons_self .., htop.1.pos_mem⟩
          · rcases List.mem_cons.1 (d3.mem_iff.1 ht) with rfl | ht
            · exact Or.inr ⟨top, List.mem_cons_self .., by rw [htop.1.rem_eq, ← h4]; exact List.mem_cons_of_mem _ hp⟩
            · exact Or.inr ⟨t, List.mem_cons_of_mem _ ht, hp⟩
        · rintro (hp | ⟨t, ht, hp⟩)
          · exact Or.inl (Or.inl hp)
          · rcases List.mem_cons.1 ht with rfl | ht
            · rw [htop.1.rem_eq, ← h4] at hp
              rcases List.mem_cons.1 hp with rfl | hp
              · exact Or.inl (Or.inr rfl)
              · exact Or.inr ⟨t', d3.mem_iff.2 (List.mem_cons_self ..), hp⟩
            · exact Or.inr ⟨t, d3.mem_iff.2 (List.mem_cons_of_mem _ ht), hp⟩
      · rw [h1]
        simp only [if_true]
        obtain ⟨t0, q', p1, p2, p3, p4, p5, p6⟩ := PQ.pop_spec tvpeLt_strictWeak q hinv (by rw [hh]; simp)
        have ht0 : t0 = top := by
          rw [PQ.top, hh] at p5
          simpa using p5.symm
        subst ht0
        rw [p1, Res.ok_bind]
        rw [hh] at p4
        have p4' : q'.heap.Perm l := (List.perm_cons _).1 p4
        have hrs' : remSum q'.heap = remSum l := remSum_perm p4'
        obtain ⟨ps, g1, g2, g3⟩ := ih q' (out ++ [t0.pos]) p2 (fun t ht => hon t (by rw [hh]; exact List.mem_cons_of_mem _ (p4'.mem_iff.1 ht)))
          (by simp only [List.length_append, List.length_singleton]; rw [h2] at hrl; simp only [List.length_nil] at hrl; omega) (by omega) hasc' (by
            intro p hp t ht
            have ht' := p4'.mem_iff.1 ht
            rcases List.mem_append.1 hp with hp | hp
            · exact hle p hp t (by rw [hh]; exact List.mem_cons_of_mem _ ht')
            · rw [List.mem_singleton.1 hp]; exact hmin t (by rw [hh]; exact List.mem_cons_of_mem _ ht'))
        refine ⟨ps, g1, g2, fun p => ?_⟩
        rw [g3, List.mem_append, List.mem_singleton]
        constructor
        · rintro ((hp | rfl) | ⟨t, ht, hp⟩)
          · exact Or.inl hp
          · exact Or.inr ⟨t0, List.mem_cons_self .., htop.1.pos_mem⟩
          · exact Or.inr ⟨t, List.mem_cons_of_mem _ (p4'.mem_iff.1 ht), hp⟩
        · rintro (hp | ⟨t, ht, hp⟩)
          · exact Or.inl (Or.inl hp)
          · rcases List.mem_cons.1 ht with rfl | ht
            · rw [htop.1.rem_eq, h2] at hp
              exact Or.inl (Or.inr (List.mem_singleton.1 hp))
            · exact Or.inr ⟨t, p4'.mem_iff.2 ht, hp⟩

/-- What term vectors are: the terms in order, each with positions in order. -/
structure Fine (tv : List (Term × List Int)) : Prop where
  order : InOrder tv
  asc : ∀ x ∈ tv, x.2 ≠ [] ∧ x.2.Pairwise (· ≤ ·) ∧ ∀ p ∈ x.2, 0 ≤ p

theorem new_next {ps : List Int} (hne : ps ≠ []) (hasc : ps.Pairwise (· ≤ ·)) (offset : Int) :
    ∃ t, tvpeNext (tvpeNew ps offset) = (true, t) ∧ On t ∧ SameList (tvpeNew ps offset) t ∧ rem t = ps.map (· - offset) ∧ t.seen = 1 := by
  rcases next_spec (t := tvpeNew ps offset) hasc with ⟨t', h1, h2, h3, h4, h5⟩ | ⟨t', h1, h2, _⟩
  · exact ⟨t', h1, h2, h3, by rw [h4]; rfl, h5⟩
  · simp [rest, tvpeNew] at h2
    exact absurd h2 hne

theorem mergePush_spec {tv : List (Term × List Int)} (hf : Fine tv) : ∀ (ts : List Term) (q : PQ.PQ Tvpe) (total : Nat), PQ.Inv tvpeLt q → (∀ t ∈ q.heap, On t ∧ t.offset = 0) → remSum q.heap = total →
    ∃ q' total', mergePush tv ts q total = .ok (q', total') ∧ PQ.Inv tvpeLt q' ∧ (∀ t ∈ q'.heap, On t ∧ t.offset = 0) ∧ remSum q'.heap = total' ∧
      ∀ p, (∃ t ∈ q'.heap, p ∈ rem t) ↔ (∃ t ∈ q.heap, p ∈ rem t) ∨ ∃ s ∈ ts, wordsOf tv s p
  | [], q, total, h1, h2, h3 => ⟨q, total, rfl, h1, h2, h3, fun p => by simp⟩
  | s :: ts, q, total, h1, h2, h3 => by
    obtain ⟨o, g1, g2⟩ := getTerm_spec hf.order s
    rw [mergePush, g1, Res.ok_bind]
    cases o with
    | none =>
      simp only
      obtain ⟨q', total', k1, k2, k3, k4, k5⟩ := mergePush_spec hf ts q total h1 h2 h3
      refine ⟨q', total', k1, k2, k3, k4, fun p => ?_⟩
      rw [k5]
      have hno : ¬ wordsOf tv s p := by
        rintro ⟨ps, hm, _⟩
        have := (g2 ps).2 hm
        cases this
      simp [hno]
    | some ps =>
      have hm := (g2 ps).1 rfl
      obtain ⟨a1, a2, _⟩ := hf.asc _ hm
      obtain ⟨t, n1, n2, n3, n4, _⟩ := new_next a1 a2 0
      simp only [n1, Bool.true_eq_false, if_false]
      obtain ⟨q1, p1, p2, p3, p4⟩ := PQ.push_spec tvpeLt_strictWeak q t h1
      rw [p1, Res.ok_bind]
      have hrem : rem t = ps := by rw [n4]; simp
      obtain ⟨q', total', k1, k2, k3, k4, k5⟩ := mergePush_spec hf ts q1 (total + ps.length) p2 (by
          intro x hx
          rcases List.mem_cons.1 (p4.mem_iff.1 hx) with rfl | hx
          · exact ⟨n2, n3.2⟩
          · exact h2 x hx) (by rw [remSum_perm p4, remSum, List.map_cons, List.sum_cons, hrem, ← h3]; show ps.length + remSum q.heap = _; omega)
      refine ⟨q', total', k1, k2, k3, k4, fun p => ?_⟩
      rw [k5]
      have hw : wordsOf tv s p ↔ p ∈ rem t := by
        rw [hrem]
        constructor
        · rintro ⟨ps', hm', hp⟩
          have := (g2 ps').2 hm'
          cases this
          exact hp
        · intro hp; exact ⟨ps, hm, hp⟩
      constructor
      · rintro (⟨x, hx, hp⟩ | ⟨s', hs, hp⟩)
        · rcases List.mem_cons.1 (p4.mem_iff.1 hx) with rfl | hx
          · exact Or.inr ⟨s, List.mem_cons_self .., hw.2 hp⟩
          · exact Or.inl ⟨x, hx, hp⟩
        · exact Or.inr ⟨s', List.mem_cons_of_mem _ hs, hp⟩
      · rintro (⟨x, hx, hp⟩ | ⟨s', hs, hp⟩)
        · exact Or.inl ⟨x, p4.mem_iff.2 (List.mem_cons_of_mem _ hx), hp⟩
        · rcases List.mem_cons.1 hs with rfl | hs
          · exact Or.inl ⟨t, p4.mem_iff.2 (List.mem_cons_self ..), hw.1 hp⟩
          · exact Or.inr ⟨s', hs, hp⟩

/-- The enumerator has the positions of a part of a phrase. -/
structure Fits (tv : List (Term × List Int)) (x : PhrasePart Term) (t : Tvpe) : Prop where
  offset : t.offset = x.offset
  mem : ∀ p, p ∈ t.positions ↔ ∃ s ∈ x.terms, wordsOf tv s p

theorem Fits.same {tv : List (Term × List Int)} {x : PhrasePart Term} {t t' : Tvpe} (h : Fits tv x t) (hs : SameList t t') : Fits tv x t' :=
  ⟨by rw [hs.2]; exact h.offset, by rw [hs.1]; exact h.mem⟩

theorem getTvpe_spec {tv : List (Term × List Int)} (hf : Fine tv) (x : PhrasePart Term) :
    ∃ o, getTvpe tv x = .ok o ∧ (o = none → ∀ p, ¬ ∃ s ∈ x.terms, wordsOf tv s p) ∧
      ∀ t, o = some t → t.seen = 0 ∧ t.positions ≠ [] ∧ t.positions.Pairwise (· ≤ ·) ∧ Fits tv x t := by
  have hmerge : ∃ o, tvpeNewMerge tv x.terms x.offset = .ok o ∧ (o = none → ∀ p, ¬ ∃ s ∈ x.terms, wordsOf tv s p) ∧
      ∀ t, o = some t → t.seen = 0 ∧ t.positions ≠ [] ∧ t.positions.Pairwise (· ≤ ·) ∧ Fits tv x t := by
    obtain ⟨q, total, h1, h2, h3, h4, h5⟩ := mergePush_spec hf x.terms (PQ.new x.terms.length) 0 (PQ.inv_new _ _) (by simp [PQ.new]) (by simp [PQ.new, remSum])
    rw [tvpeNewMerge, h1, Res.ok_bind]
    simp only
    have h5' : ∀ p, (∃ t ∈ q.heap, p ∈ rem t) ↔ ∃ s ∈ x.terms, wordsOf tv s p := by
      intro p; rw [h5]; simp [PQ.new]
    by_cases hh : q.heap = []
    · rw [if_pos hh]
      refine ⟨none, rfl, fun _ p hp => ?_, fun t ht => by cases ht⟩
      obtain ⟨t, ht, _⟩ := (h5' p).2 hp
      rw [hh] at ht
      cases ht
    · rw [if_neg hh]
      obtain ⟨ps, m1, m2, m3⟩ := mergeGo_spec total (total + 1) q [] h2 h3 (by simp; exact h4) (by omega) List.Pairwise.nil (fun p hp => by cases hp)
      rw [m1, Res.ok_bind]
      have m3' : ∀ p, p ∈ ps ↔ ∃ s ∈ x.terms, wordsOf tv s p := by
        intro p; rw [m3, ← h5']; simp
      refine ⟨_, rfl, (fun h => by cases h), fun t ht => ?_⟩
      cases ht
      refine ⟨rfl, ?_, m2, rfl, m3'⟩
      obtain ⟨t, ht⟩ := List.exists_mem_of_ne_nil _ hh
      have : t.pos ∈ ps := (m3 _).2 (Or.inr ⟨t, ht, (h3 t ht).1.pos_mem⟩)
      exact List.ne_nil_of_mem this
  unfold getTvpe
  split
  · rename_i t ht
    obtain ⟨o, g1, g2⟩ := getTerm_spec hf.order t
    rw [g1, Res.ok_bind]
    cases o with
    | none =>
      refine ⟨none, rfl, fun _ p => ?_, fun t ht => by cases ht⟩
      rintro ⟨s, hs, ps, hm, _⟩
      rw [ht, List.mem_singleton] at hs
      subst hs
      have := (g2 ps).2 hm
      cases this
    | some ps =>
      have hm := (g2 ps).1 rfl
      obtain ⟨a1, a2, _⟩ := hf.asc _ hm
      refine ⟨_, rfl, (fun h => by cases h), fun e he => ?_⟩
      cases he
      refine ⟨rfl, a1, a2, rfl, fun p => ?_⟩
      rw [ht]
      simp only [List.mem_singleton, exists_eq_left]
      constructor
      · intro hp; exact ⟨ps, hm, hp⟩
      · rintro ⟨ps', hm', hp⟩
        have := (g2 ps').2 hm'
        cases this
        exact hp
  · exact hmerge

end Ferret.Marks
