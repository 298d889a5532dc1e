import Verif.Lemmas.MarksExact

/-! Marking the occurrences of a sloppy phrase. -/

namespace Ferret.Marks

open Ferret.Spec
open Ferret.Expand (Term)
open Ferret.MV (MV mvAdd)

/-- The smallest and the largest of the positions. -/
theorem spread_spec (p : Int) (h : List Tvpe) :
    (∃ a b, spread p h = (a, b) ∧ (a = p ∨ ∃ t ∈ h, a = t.pos + t.offset) ∧ (b = p ∨ ∃ t ∈ h, b = t.pos + t.offset) ∧
      a ≤ p ∧ p ≤ b ∧ ∀ t ∈ h, a ≤ t.pos + t.offset ∧ t.pos + t.offset ≤ b) := by
  have key : ∀ (l : List Tvpe) (m : Int × Int), m.1 ≤ m.2 →
      ∃ a b, l.foldl (fun m t => (if t.pos + t.offset < m.1 then t.pos + t.offset else m.1, if t.pos + t.offset > m.2 then t.pos + t.offset else m.2)) m = (a, b) ∧
        (a = m.1 ∨ ∃ t ∈ l, a = t.pos + t.offset) ∧ (b = m.2 ∨ ∃ t ∈ l, b = t.pos + t.offset) ∧ a ≤ m.1 ∧ m.2 ≤ b ∧ ∀ t ∈ l, a ≤ t.pos + t.offset ∧ t.pos + t.offset ≤ b := by
    intro l
    induction l with
    | nil => intro m hm; exact ⟨m.1, m.2, rfl, Or.inl rfl, Or.inl rfl, Int.le_refl _, Int.le_refl _, fun t ht => by cases ht⟩
    | cons x l ih =>
      intro m hm
      rw [List.foldl_cons]
      obtain ⟨a, b, h1, h2, h3, h4, h5, h6⟩ := ih (if x.pos + x.offset < m.1 then x.pos + x.offset else m.1, if x.pos + x.offset > m.2 then x.pos + x.offset else m.2) (by
        simp only; split <;> split <;> omega)
      simp only at h2 h3 h4 h5
      refine ⟨a, b, h1, ?_, ?_, ?_, ?_, fun t ht => ?_⟩
      · rcases h2 with h2 | ⟨t, ht, h2⟩
        · by_cases hc : x.pos + x.offset < m.1
          · rw [if_pos hc] at h2; exact Or.inr ⟨x, List.mem_cons_self .., h2⟩
          · rw [if_neg hc] at h2; exact Or.inl h2
        · exact Or.inr ⟨t, List.mem_cons_of_mem _ ht, h2⟩
      · rcases h3 with h3 | ⟨t, ht, h3⟩
        · by_cases hc : x.pos + x.offset > m.2
          · rw [if_pos hc] at h3; exact Or.inr ⟨x, List.mem_cons_self .., h3⟩
          · rw [if_neg hc] at h3; exact Or.inl h3
        · exact Or.inr ⟨t, List.mem_cons_of_mem _ ht, h3⟩
      · split at h4 <;> omega
      · split at h5 <;> omega
      · rcases List.mem_cons.1 ht with rfl | ht
        · constructor
          · split at h4 <;> omega
          · split at h5 <;> omega
        · exact h6 t ht
  obtain ⟨a, b, h1, h2, h3, h4, h5, h6⟩ := key h.reverse (p, p) (Int.le_refl _)
  refine ⟨a, b, h1, ?_, ?_, h4, h5, fun t ht => h6 t (List.mem_reverse.2 ht)⟩
  · rcases h2 with h2 | ⟨t, ht, h2⟩
    · exact Or.inl h2
    · exact Or.inr ⟨t, List.mem_reverse.1 ht, h2⟩
  · rcases h3 with h3 | ⟨t, ht, h3⟩
    · exact Or.inl h3
    · exact Or.inr ⟨t, List.mem_reverse.1 ht, h3⟩

/-- Advancing one enumerator: `start` is the last position not after `next`; what is passed is not after `start`. -/
theorem advanceGo_spec (next : Int) : ∀ (fuel : Nat) (t : Tvpe) (start : Int), On t → (rest t).length + 1 < fuel + 0 → t.pos ≤ next →
    ∃ st t' done, advanceGo next fuel t t.pos start = .ok (st, t', done) ∧ SameList t t' ∧ st ∈ rem t ∧ st ≤ next ∧
      (done = false → On t' ∧ next < t'.pos ∧ t.seen < t'.seen ∧ (∀ q ∈ rem t', q ∈ rem t) ∧ ∀ q ∈ rem t, q ≤ st ∨ q ∈ rem t') ∧
      (done = true → ∀ q ∈ rem t, q ≤ st) := by
  intro fuel
  induction fuel with
  | zero => intro t start h hf; omega
  | succ n ih =>
    intro t start hon hfuel hle
    rw [advanceGo, if_pos hle]
    rcases next_spec hon.asc with ⟨t1, h1, h2, h3, h4, h5⟩ | ⟨t1, h1, h2, h3, h4⟩
    · rw [h1]
      simp only [Bool.true_eq_false, if_false]
      have hr : rem t = t.pos :: rem t1 := by rw [hon.rem_eq, h4]
      have hlt1 : t.pos ≤ t1.pos := hon.le_rem (by rw [hr]; exact List.mem_cons_of_mem _ h2.pos_mem)
      by_cases hc : t1.pos ≤ next
      · have hl : (rest t1).length + 1 < n + 0 := by
          have : (rest t).length = (rest t1).length + 1 := by rw [← h4, h2.rem_eq]; rfl
          omega
        obtain ⟨st, t', done, g1, g2, g3, g4, g5, g6⟩ := ih t1 t.pos h2 hl hc
        have hst : t.pos ≤ st := Int.le_trans hlt1 (h2.le_rem g3)
        refine ⟨st, t', done, g1, ⟨by rw [g2.1, h3.1], by rw [g2.2, h3.2]⟩, by rw [hr]; exact List.mem_cons_of_mem _ g3, g4, fun hd => ?_, fun hd q hq => ?_⟩
        · obtain ⟨k1, k2, k3, k4, k5⟩ := g5 hd
          refine ⟨k1, k2, by omega, fun q hq => by rw [hr]; exact List.mem_cons_of_mem _ (k4 q hq), fun q hq => ?_⟩
          rw [hr] at hq
          rcases List.mem_cons.1 hq with rfl | hq
          · exact Or.inl hst
          · exact k5 q hq
        · rw [hr] at hq
          rcases List.mem_cons.1 hq with rfl | hq
          · exact hst
          · exact g6 hd q hq
      · obtain ⟨m, rfl⟩ : ∃ m, n = m + 1 := ⟨n - 1, by omega⟩
        refine ⟨t.pos, t1, false, by rw [advanceGo, if_neg hc], h3, hon.pos_mem, hle, fun _ => ⟨h2, by omega, by omega, fun q hq => by rw [hr]; exact List.mem_cons_of_mem _ hq, fun q hq => ?_⟩, (fun h => by cases h)⟩
        rw [hr] at hq
        rcases List.mem_cons.1 hq with rfl | hq
        · exact Or.inl (Int.le_refl _)
        · exact Or.inr hq
    · rw [h1]
      refine ⟨t.pos, t1, true, by simp, h3, hon.pos_mem, hle, (fun h => by cases h), fun _ q hq => ?_⟩
      rw [hon.rem_eq, h2, List.mem_singleton] at hq
      omega

theorem erase_perm {E : List Tvpe} {i : Nat} {t : Tvpe} (h : E[i]? = some t) : (t :: E.eraseIdx i).Perm E := by
  obtain ⟨hlt, he⟩ := List.getElem?_eq_some_iff.1 h
  have h1 : E = E.take i ++ t :: E.drop (i + 1) := by rw [← he]; simp
  rw [List.eraseIdx_eq_take_drop_succ]
  conv => rhs; rw [h1]
  exact List.perm_middle.symm

theorem perm_set {E : List Tvpe} {i : Nat} {t : Tvpe} (h : E[i]? = some t) (t' : Tvpe) {l : List Tvpe} (hp : (t :: l).Perm E) : (t' :: l).Perm (E.set i t') := by
  obtain ⟨hlt, he⟩ := List.getElem?_eq_some_iff.1 h
  have h1 : E = E.take i ++ t :: E.drop (i + 1) := by rw [← he]; simp
  have h2 : E.set i t' = E.take i ++ t' :: E.drop (i + 1) := by
    rw [List.set_eq_take_append_cons_drop, if_pos hlt]
  rw [h1] at hp
  have h3 : l.Perm (E.take i ++ E.drop (i + 1)) := (List.perm_cons t).1 (hp.trans List.perm_middle)
  rw [h2]
  exact ((List.perm_cons t').2 h3).trans List.perm_middle.symm

/-- A choice of positions among those left to the enumerators. -/
def Chosen (E : List Tvpe) (c : Nat → Int) (lo hi : Int) : Prop := ∀ (i : Nat) t, E[i]? = some t → lo ≤ c i ∧ c i ≤ hi ∧ c i ∈ rem t

/-- From where to where the words of a choice go. -/
def Spans (E : List Tvpe) (c : Nat → Int) (a b : Int) : Prop :=
  (∃ (i : Nat) (t : Tvpe), E[i]? = some t ∧ a = c i + t.offset) ∧ (∃ (i : Nat) (t : Tvpe), E[i]? = some t ∧ b = c i + t.offset) ∧
  ∀ (i : Nat) t, E[i]? = some t → a ≤ c i + t.offset ∧ c i + t.offset ≤ b

theorem chosen_set {E : List Tvpe} {i : Nat} {t t' : Tvpe} (hi : E[i]? = some t) (hsub : ∀ q ∈ rem t', q ∈ rem t) {c : Nat → Int} {lo hi' : Int} (h : Chosen (E.set i t') c lo hi') : Chosen E c lo hi' := by
  intro j x hx
  by_cases hij : i = j
  · subst hij
    rw [hi] at hx; cases hx
    obtain ⟨h1, h2, h3⟩ := h i t' (List.getElem?_set_self (List.getElem?_eq_some_iff.1 hi).1)
    exact ⟨h1, h2, hsub _ h3⟩
  · exact h j x (by rw [List.getElem?_set_ne hij]; exact hx)

theorem spans_set {E : List Tvpe} {i : Nat} {t t' : Tvpe} (hi : E[i]? = some t) (hs : SameList t t') {c : Nat → Int} {a b : Int} (h : Spans (E.set i t') c a b) : Spans E c a b := by
  have hlt := (List.getElem?_eq_some_iff.1 hi).1
  have key : ∀ (j : Nat) x, (E.set i t')[j]? = some x → ∃ y, E[j]? = some y ∧ y.offset = x.offset := by
    intro j x hx
    by_cases hij : i = j
    · subst hij
      rw [List.getElem?_set_self hlt] at hx; cases hx
      exact ⟨t, hi, hs.2.symm⟩
    · rw [List.getElem?_set_ne hij] at hx; exact ⟨x, hx, rfl⟩
  obtain ⟨⟨j, x, h1, h2⟩, ⟨k, y, h3, h4⟩, h5⟩ := h
  obtain ⟨x', g1, g2⟩ := key j x h1
  obtain ⟨y', g3, g4⟩ := key k y h3
  refine ⟨⟨j, x', g1, by rw [g2]; exact h2⟩, ⟨k, y', g3, by rw [g4]; exact h4⟩, fun m z hz => ?_⟩
  by_cases hij : i = m
  · subst hij
    rw [hi] at hz; cases hz
    have := h5 i t' (List.getElem?_set_self hlt)
    rw [hs.2] at this
    exact this
  · exact h5 m z (by rw [List.getElem?_set_ne hij]; exact hz)

theorem sloppyGo_spec (slop : Int) : ∀ (fuel : Nat) (q : PQ.PQ Tvpe) (E : List Tvpe) (last : Int) (mv : MV), PQ.Inv tvpeLt q → q.heap.Perm E → 2 ≤ E.length → (∀ t ∈ E, On t) → left E < fuel →
    (∀ t ∈ E, t.pos ≤ last) → (∃ t ∈ E, t.pos = last) →
    ∃ mv' L, sloppyGo slop fuel q last mv = .ok mv' ∧ Added mv mv' L ∧
      (∀ a b, (a, b) ∈ L → ∃ c lo, Chosen E c lo (lo + slop) ∧ Spans E c a b) ∧
      ∀ c lo hi, hi ≤ lo + slop → Chosen E c lo hi → ∃ c' a b, Chosen E c' lo hi ∧ Spans E c' a b ∧ (a, b) ∈ L := by
  intro fuel
  induction fuel with
  | zero => intro q E last mv _ _ _ _ h; omega
  | succ n ih =>
    intro q E last mv hinv hperm hlen hon hfuel hlast hlast'
    have hne : q.heap ≠ [] := fun h => by
      have := hperm.length_eq; rw [h] at this; simp at this; omega
    obtain ⟨t, q1, p1, p2, p3, p4, p5, p6⟩ := PQ.pop_spec tvpeLt_strictWeak q hinv hne
    have hpE : (t :: q1.heap).Perm E := p4.trans hperm
    have htE : t ∈ E := hpE.mem_iff.1 (List.mem_cons_self ..)
    obtain ⟨i, hi⟩ := List.getElem?_of_mem htE
    have hil := (List.getElem?_eq_some_iff.1 hi).1
    have hmin : ∀ x ∈ E, t.pos ≤ x.pos := by
      intro x hx
      have := p6 x (hperm.mem_iff.2 hx)
      simp only [tvpeLt, decide_eq_false_iff_not] at this
      omega
    obtain ⟨nxt, l, hq1⟩ : ∃ nxt l, q1.heap = nxt :: l := by
      cases h : q1.heap with
      | nil => have := hpE.length_eq; rw [h] at this; simp at this; omega
      | cons a l => exact ⟨a, l, rfl⟩
    have hnE : ∀ x ∈ q1.heap, x ∈ E := fun x hx => hpE.mem_iff.1 (List.mem_cons_of_mem _ hx)
    have hnxtE : nxt ∈ E := hnE nxt (by rw [hq1]; exact List.mem_cons_self ..)
    have hnmin : ∀ x ∈ q1.heap, nxt.pos ≤ x.pos := by
      intro x hx
      have := PQ.heap_top_min tvpeLt_strictWeak p2.heap nxt (by rw [hq1]; rfl) x hx
      simp only [tvpeLt, decide_eq_false_iff_not] at this
      omega
    rw [sloppyGo, p1, Res.ok_bind]
    simp only [Res.ofOption, Res.ok_bind, PQ.top, hq1, List.head?_cons]
    rw [← hq1]
    have hont := hon t htE
    obtain ⟨st, t', done, a1, a2, a3, a4, a5, a6⟩ := advanceGo_spec nxt.pos (t.positions.length + 1) t t.pos hont (by
      have h1 : (rest t).length = t.positions.length - t.seen := by simp [rest]
      have h2 := hont.seen
      have h3 := hont.lt
      omega) (hmin nxt hnxtE)
    rw [a1, Res.ok_bind]
    simp only
    -- the others
    have hoth : ∀ (j : Nat) x, E[j]? = some x → j ≠ i → x ∈ q1.heap := by
      intro j x hx hji
      have h1 := (perm_set hi t' hpE)
      have h2 : x ∈ (E.eraseIdx i) := by
        rw [List.mem_eraseIdx_iff_getElem?]
        exact ⟨j, hji, hx⟩
      have h3 : (t :: q1.heap).Perm (t :: E.eraseIdx i) := by
        exact hpE.trans (erase_perm hi).symm
      exact ((List.perm_cons t).1 h3).mem_iff.2 h2
    have hidx : ∀ x ∈ q1.heap, ∃ j, j ≠ i ∧ E[j]? = some x := by
      intro x hx
      have h3 : (t :: q1.heap).Perm (t :: E.eraseIdx i) := by
        exact hpE.trans (erase_perm hi).symm
      have h4 := ((List.perm_cons t).1 h3).mem_iff.1 hx
      rw [List.mem_eraseIdx_iff_getElem?] at h4
      obtain ⟨j, h5, h6⟩ := h4
      exact ⟨j, h5, h6⟩
    -- the last position is that of another one
    have hlo : ∃ x ∈ q1.heap, x.pos = last := by
      obtain ⟨x, hx, hxl⟩ := hlast'
      rcases List.mem_cons.1 (hpE.mem_iff.2 hx) with rfl | hx
      · refine ⟨nxt, by rw [hq1]; exact List.mem_cons_self .., ?_⟩
        have h1 := hmin nxt hnxtE
        have h2 := hlast nxt hnxtE
        omega
      · exact ⟨x, hx, hxl⟩
    -- the choice that may be marked
    let c0 : Nat → Int := fun j => if j = i then st else (E[j]?.map (·.pos)).getD 0
    have hc0i : c0 i = st := by simp [c0]
    have hc0 : ∀ j x, E[j]? = some x → j ≠ i → c0 j = x.pos := by
      intro j x hx hji
      simp [c0, hji, hx]
    obtain ⟨a, b, s1, s2, s3, s4, s5, s6⟩ := spread_spec (st + t'.offset) q1.heap
    have hspans : Spans E c0 a b := by
      rw [a2.2] at s2 s3 s4 s5
      have hex : ∀ z, (z = st + t.offset ∨ ∃ x ∈ q1.heap, z = x.pos + x.offset) → ∃ (j : Nat) (x : Tvpe), E[j]? = some x ∧ z = c0 j + x.offset := by
        rintro z (hz | ⟨x, hx, hz⟩)
        · exact ⟨i, t, hi, by rw [hc0i]; exact hz⟩
        · obtain ⟨j, hj, hx'⟩ := hidx x hx
          exact ⟨j, x, hx', by rw [hc0 j x hx' hj]; exact hz⟩
      refine ⟨hex a s2, hex b s3, fun j x hx => ?_⟩
      by_cases hji : j = i
      · subst hji
        rw [hi] at hx; cases hx
        rw [hc0i]
        exact ⟨s4, s5⟩
      · rw [hc0 j x hx hji]
        exact s6 x (hoth j x hx hji)
    have hst : ∀ x ∈ q1.heap, st ≤ x.pos := fun x hx => Int.le_trans a4 (hnmin x hx)
    have hchosen : ∀ lo hi, lo ≤ st → last ≤ hi → Chosen E c0 lo hi := by
      intro lo hi' h1 h2 j x hx
      by_cases hji : j = i
      · subst hji
        rw [hi] at hx; cases hx
        rw [hc0i]
        obtain ⟨y, hy, hyl⟩ := hlo
        have := hst y hy
        exact ⟨h1, by omega, a3⟩
      · rw [hc0 j x hx hji]
        have hx' := hoth j x hx hji
        have h3 := hst x hx'
        have h4 := hlast x (hnE x hx')
        exact ⟨by omega, by omega, (hon x (hnE x hx')).pos_mem⟩
    -- marked or not
    have hmark : ∃ mv1 L1, (if last - st ≤ slop then mvAdd mv (spread (st + t'.offset) q1.heap).1 (spread (st + t'.offset) q1.heap).2 else mv) = mv1 ∧ Added mv mv1 L1 ∧
        (∀ x y, (x, y) ∈ L1 → ∃ c lo, Chosen E c lo (lo + slop) ∧ Spans E c x y) ∧ (last - st ≤ slop → (a, b) ∈ L1) := by
      by_cases hc : last - st ≤ slop
      · refine ⟨_, [(a, b)], rfl, by rw [if_pos hc, s1]; exact added_one .., fun x y hxy => ?_, fun _ => List.mem_cons_self ..⟩
        rw [List.mem_singleton, Prod.mk.injEq] at hxy
        obtain ⟨rfl, rfl⟩ := hxy
        exact ⟨c0, st, hchosen _ _ (Int.le_refl _) (by omega), hspans⟩
      · exact ⟨_, [], rfl, by rw [if_neg hc]; exact Added.refl mv, (fun x y hxy => by cases hxy), fun h => absurd h hc⟩
    obtain ⟨mv1, L1, m1, m2, m3, m4⟩ := hmark
    rw [m1]
    -- a choice whose position here is passed is shown by the mark
    have hpass : ∀ c lo hi', hi' ≤ lo + slop → Chosen E c lo hi' → c i ≤ st → ∃ c' x y, Chosen E c' lo hi' ∧ Spans E c' x y ∧ (x, y) ∈ L1 := by
      intro c lo hi' h1 h2 h3
      have h4 := h2 i t hi
      have h5 : last ≤ hi' := by
        obtain ⟨y, hy, hyl⟩ := hlo
        obtain ⟨j, _, hj⟩ := hidx y hy
        have := h2 j y hj
        have h6 := (hon y (hnE y hy)).le_rem this.2.2
        omega
      exact ⟨c0, a, b, hchosen lo hi' (by omega) h5, hspans, m4 (by omega)⟩
    obtain ⟨q2, u1, u2, u3, u4⟩ := PQ.push_spec tvpeLt_strictWeak q1 t' p2
    rw [u1, Res.ok_bind]
    cases done with
    | true =>
      simp only [if_true]
      refine ⟨mv1, L1, rfl, m2, m3, fun c lo hi' h1 h2 => ?_⟩
      exact hpass c lo hi' h1 h2 (a6 rfl _ (h2 i t hi).2.2)
    | false =>
      obtain ⟨b1, b2, b3, b4, b5⟩ := a5 rfl
      simp only [Bool.false_eq_true, if_false]
      have hlen' : (E.set i t').length = E.length := List.length_set ..
      have hmem' : ∀ x ∈ E.set i t', x = t' ∨ x ∈ E := by
        intro x hx
        rcases List.mem_or_eq_of_mem_set hx with hx | rfl
        · exact Or.inr hx
        · exact Or.inl rfl
      obtain ⟨mv2, L2, g1, g2, g3, g4⟩ := ih q2 (E.set i t') (if t'.pos > last then t'.pos else last) mv1 u2 (u4.trans (perm_set hi t' hpE)) (by rw [hlen']; exact hlen) (by
          intro x hx
          rcases hmem' x hx with rfl | hx
          · exact b1
          · exact hon x hx) (by have := left_set_lt hi hont b1 a2 b3; omega) (by
          intro x hx
          rcases hmem' x hx with rfl | hx
          · split <;> omega
          · have := hlast x hx; split <;> omega) (by
          by_cases hc : t'.pos > last
          · rw [if_pos hc]
            exact ⟨t', List.mem_of_getElem? (List.getElem?_set_self hil), rfl⟩
          · rw [if_neg hc]
            obtain ⟨y, hy, hyl⟩ := hlo
            obtain ⟨j, hj, hj'⟩ := hidx y hy
            exact ⟨y, List.mem_of_getElem? (i := j) (by rw [List.getElem?_set_ne (Ne.symm hj)]; exact hj'), hyl⟩)
      refine ⟨mv2, L1 ++ L2, g1, m2.trans g2, fun x y hxy => ?_, fun c lo hi' h1 h2 => ?_⟩
      · rcases List.mem_append.1 hxy with h | h
        · exact m3 x y h
        · obtain ⟨c, lo, k1, k2⟩ := g3 x y h
          exact ⟨c, lo, chosen_set hi b4 k1, spans_set hi a2 k2⟩
      · rcases b5 _ (h2 i t hi).2.2 with h | h
        · obtain ⟨c', x, y, k1, k2, k3⟩ := hpass c lo hi' h1 h2 h
          exact ⟨c', x, y, k1, k2, List.mem_append_left _ k3⟩
        · have hch : Chosen (E.set i t') c lo hi' := by
            intro j x hx
            by_cases hji : i = j
            · subst hji
              rw [List.getElem?_set_self hil] at hx; cases hx
              have := h2 i t hi
              exact ⟨this.1, this.2.1, h⟩
            · rw [List.getElem?_set_ne hji] at hx
              exact h2 j x hx
          obtain ⟨c', x, y, k1, k2, k3⟩ := g4 c lo hi' h1 hch
          exact ⟨c', x, y, chosen_set hi b4 k1, spans_set hi a2 k2, List.mem_append_right _ k3⟩

/-- The enumerators stand at the beginning. -/
def AllLeft (E : List Tvpe) : Prop := ∀ t ∈ E, rem t = t.positions.map (· - t.offset)

theorem sloppyInit_spec {tv : List (Term × List Int)} (hf : Fine tv) : ∀ (ys xs : List (PhrasePart Term)) (E : List Tvpe) (q : PQ.PQ Tvpe) (last : Int), FitAll tv xs E → AllLeft E → PQ.Inv tvpeLt q → q.heap.Perm E →
    (∀ t ∈ E, t.pos ≤ last) → (last = 0 ∨ ∃ t ∈ E, t.pos = last) →
    ∃ o, sloppyInit tv ys q last = .ok o ∧ (o = none → ∃ y ∈ ys, ∀ p, ¬ ∃ s ∈ y.terms, wordsOf tv s p) ∧
      ∀ q' last', o = some (q', last') → ∃ E', FitAll tv (xs ++ ys) E' ∧ AllLeft E' ∧ PQ.Inv tvpeLt q' ∧ q'.heap.Perm E' ∧ (∀ t ∈ E', t.pos ≤ last') ∧ (last' = 0 ∨ ∃ t ∈ E', t.pos = last')
  | [], xs, E, q, last, h1, h2, h3, h4, h5, h6 => ⟨some (q, last), rfl, (fun h => by cases h), fun q' last' he => by cases he; rw [List.append_nil]; exact ⟨E, h1, h2, h3, h4, h5, h6⟩⟩
  | y :: ys, xs, E, q, last, h1, h2, h3, h4, h5, h6 => by
    obtain ⟨o, g1, g2, g3⟩ := getTvpe_spec hf y
    rw [sloppyInit, g1, Res.ok_bind]
    cases o with
    | none => exact ⟨none, rfl, fun _ => ⟨y, List.mem_cons_self .., g2 rfl⟩, fun q' l' h => by cases h⟩
    | some t =>
      obtain ⟨k1, k2, k3, k4⟩ := g3 t rfl
      simp only
      rcases next_spec k3 with ⟨t', n1, n2, n3, n4, _⟩ | ⟨t', n1, n2, _⟩
      · rw [n1]
        simp only [Bool.true_eq_false, if_false]
        obtain ⟨q1, u1, u2, u3, u4⟩ := PQ.push_spec tvpeLt_strictWeak q t' h3
        rw [u1, Res.ok_bind]
        obtain ⟨o, m1, m2, m3⟩ := sloppyInit_spec hf ys (xs ++ [y]) (E ++ [t']) q1 (if t'.pos > last then t'.pos else last) (h1.snoc n2 (k4.same n3)) (by
            intro x hx
            rcases List.mem_append.1 hx with hx | hx
            · exact h2 x hx
            · rw [List.mem_singleton.1 hx, n4, rest, k1, List.drop_zero, n3.1, n3.2]) u2
          (u4.trans (((List.perm_cons t').2 h4).trans (List.perm_append_comm (l₁ := [t']) (l₂ := E)))) (by
            intro x hx
            rcases List.mem_append.1 hx with hx | hx
            · have := h5 x hx; split <;> omega
            · rw [List.mem_singleton.1 hx]; split <;> omega) (by
            by_cases hc : t'.pos > last
            · rw [if_pos hc]; exact Or.inr ⟨t', by simp, rfl⟩
            · rw [if_neg hc]
              rcases h6 with h6 | ⟨x, hx, h6⟩
              · exact Or.inl h6
              · exact Or.inr ⟨x, List.mem_append_left _ hx, h6⟩)
        refine ⟨o, m1, fun ho => ?_, fun q' l' he => ?_⟩
        · obtain ⟨z, hz, h⟩ := m2 ho
          exact ⟨z, List.mem_cons_of_mem _ hz, h⟩
        · have := m3 q' l' he
          rw [List.append_assoc, List.singleton_append] at this
          exact this
      · exfalso
        unfold rest at n2
        rw [k1, List.drop_zero, List.map_eq_nil_iff] at n2
        exact k2 n2

theorem sloppyMatch_spec {tv : List (Term × List Int)} (hf : Fine tv) {parts : List (PhrasePart Term)} (hlen : 2 ≤ parts.length) (hoff : ∃ x ∈ parts, x.offset ≤ 0) (slop : Int) (mv : MV) :
    ∃ mv' L, sloppyMatch tv parts slop mv = .ok mv' ∧ Added mv mv' L ∧
      (∀ a b, (a, b) ∈ L → ∃ c lo, Choice (wordsOf tv) parts c lo (lo + slop) ∧ MarkEnds parts c a b) ∧
      ∀ c lo hi, hi ≤ lo + slop → Choice (wordsOf tv) parts c lo hi → ∃ c' a b, Choice (wordsOf tv) parts c' lo hi ∧ MarkEnds parts c' a b ∧ (a, b) ∈ L := by
  obtain ⟨o, g1, g2, g3⟩ := sloppyInit_spec hf parts [] [] (PQ.new parts.length) 0 ⟨rfl, by simp⟩ (fun t ht => by cases ht) (PQ.inv_new _ _) (by simp [PQ.new]) (fun t ht => by cases ht) (Or.inl rfl)
  rw [List.nil_append] at g3
  rw [sloppyMatch, g1, Res.ok_bind]
  cases o with
  | none =>
    refine ⟨mv, [], rfl, Added.refl mv, (fun a b h => by cases h), fun c lo hi _ hc => ?_⟩
    obtain ⟨y, hy, hno⟩ := g2 rfl
    obtain ⟨i, hi⟩ := List.getElem?_of_mem hy
    obtain ⟨_, _, h⟩ := hc i y hi
    exact absurd h (hno _)
  | some r =>
    obtain ⟨q, last⟩ := r
    obtain ⟨E, k1, k2, k3, k4, k5, k6⟩ := g3 q last rfl
    simp only
    have hget : ∀ (i : Nat) x, parts[i]? = some x → ∃ t, E[i]? = some t ∧ Fits tv x t := by
      intro i x hx
      have hlt := (List.getElem?_eq_some_iff.1 hx).1
      have hlt' : i < E.length := by rw [k1.1]; exact hlt
      exact ⟨E[i], List.getElem?_eq_getElem hlt', (k1.2 i x _ hx (List.getElem?_eq_getElem hlt')).2⟩
    have hget' : ∀ (i : Nat) t, E[i]? = some t → ∃ x, parts[i]? = some x ∧ Fits tv x t := by
      intro i t ht
      have hlt := (List.getElem?_eq_some_iff.1 ht).1
      have hlt' : i < parts.length := by rw [← k1.1]; exact hlt
      exact ⟨parts[i], List.getElem?_eq_getElem hlt', (k1.2 i _ t (List.getElem?_eq_getElem hlt') ht).2⟩
    -- the first positions are not all negative
    have hlast : ∃ t ∈ E, t.pos = last := by
      rcases k6 with h0 | h
      · obtain ⟨x, hx, hxo⟩ := hoff
        obtain ⟨i, hi⟩ := List.getElem?_of_mem hx
        obtain ⟨t, ht, hft⟩ := hget i x hi
        have htm := List.mem_of_getElem? ht
        have h1 := mem_rem (k1.on htm).pos_mem
        obtain ⟨s, _, ps, hps, hp⟩ := (hft.mem _).1 h1
        have h2 := (hf.asc _ hps).2.2 _ hp
        have h3 := k5 t htm
        rw [hft.offset] at h2
        exact ⟨t, htm, by omega⟩
      · exact h
    obtain ⟨mv', L, m1, m2, m3, m4⟩ := sloppyGo_spec slop (left q.heap + 1) q E last mv k3 k4 (by rw [k1.1]; exact hlen) (fun t ht => k1.on ht) (by
      rw [show left q.heap = left E from (k4.map _).sum_nat]; omega) k5 hlast
    have hch : ∀ c lo hi, Chosen E c lo hi ↔ Choice (wordsOf tv) parts c lo hi := by
      intro c lo hi
      constructor
      · intro h i x hx
        obtain ⟨t, ht, hft⟩ := hget i x hx
        obtain ⟨h1, h2, h3⟩ := h i t ht
        have h4 := mem_rem h3
        rw [hft.offset] at h4
        exact ⟨h1, h2, (hft.mem _).1 h4⟩
      · intro h i t ht
        obtain ⟨x, hx, hft⟩ := hget' i t ht
        obtain ⟨h1, h2, h3⟩ := h i x hx
        refine ⟨h1, h2, ?_⟩
        rw [k2 t (List.mem_of_getElem? ht)]
        exact List.mem_map.2 ⟨c i + x.offset, (hft.mem _).2 h3, by rw [hft.offset]; omega⟩
    have hsp : ∀ c a b, Spans E c a b → MarkEnds parts c a b := by
      rintro c a b ⟨⟨i, t, h1, h2⟩, ⟨j, u, h3, h4⟩, h5⟩
      obtain ⟨x, hx, hfx⟩ := hget' i t h1
      obtain ⟨y, hy, hfy⟩ := hget' j u h3
      refine ⟨⟨i, x, hx, by rw [← hfx.offset]; exact h2⟩, ⟨j, y, hy, by rw [← hfy.offset]; exact h4⟩, fun k z hz => ?_⟩
      obtain ⟨w, hw, hfw⟩ := hget k z hz
      rw [← hfw.offset]
      exact h5 k w hw
    refine ⟨mv', L, m1, m2, fun a b hab => ?_, fun c lo hi h1 h2 => ?_⟩
    · obtain ⟨c, lo, h1, h2⟩ := m3 a b hab
      exact ⟨c, lo, (hch _ _ _).1 h1, hsp _ _ _ h2⟩
    · obtain ⟨c', a, b, h3, h4, h5⟩ := m4 c lo hi h1 ((hch _ _ _).2 h2)
      exact ⟨c', a, b, (hch _ _ _).1 h3, hsp _ _ _ h4, h5⟩

end Ferret.Marks
