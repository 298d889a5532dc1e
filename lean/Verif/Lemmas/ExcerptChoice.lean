import Verif.Model.Excerpt
import Verif.Spec.Excerpt
import Verif.Lemmas.PriorityQueue

namespace Ferret.Excerpt
open Ferret Ferret.Spec Ferret.PQ

theorem exLt_weak : StrictWeak exLt :=
  ⟨fun a b h => by simp only [exLt, decide_eq_true_eq, decide_eq_false_iff_not] at *; omega,
   fun a b c h1 h2 => by simp only [exLt, decide_eq_false_iff_not] at *; omega⟩

/-- A match as the specification sees it. -/
def hitOf (m : Mt) : Hit := ⟨m.so, m.eo, m.score⟩

/-- The matches come in order, and each fits an excerpt. -/
structure Fit (len : Int) (ms : List Mt) : Prop where
  short : ∀ m ∈ ms, m.eo ≤ m.so + len
  fine : ∀ m ∈ ms, m.so ≤ m.eo
  forward : ms.Pairwise fun a b => a.eo ≤ b.so
  score : ∀ m ∈ ms, 0 ≤ m.score

theorem Fit.lt {len : Int} {ms : List Mt} (h : Fit len ms) {i j : Nat} {a b : Mt} (hij : i < j) (ha : ms[i]? = some a) (hb : ms[j]? = some b) :
    a.eo ≤ b.so := by
  obtain ⟨hi, rfl⟩ := List.getElem?_eq_some_iff.1 ha
  obtain ⟨hj, rfl⟩ := List.getElem?_eq_some_iff.1 hb
  exact List.pairwise_iff_getElem.1 h.forward i j hi hj hij

theorem Fit.so_le {len : Int} {ms : List Mt} (h : Fit len ms) {i j : Nat} {a b : Mt} (hij : i ≤ j) (ha : ms[i]? = some a) (hb : ms[j]? = some b) :
    a.so ≤ b.so := by
  rcases Nat.lt_or_eq_of_le hij with hlt | rfl
  · have := h.lt hlt ha hb; have := h.fine a (List.mem_of_getElem? ha); omega
  · rw [ha] at hb; cases hb; omega

theorem Fit.eo_le {len : Int} {ms : List Mt} (h : Fit len ms) {i j : Nat} {a b : Mt} (hij : i ≤ j) (ha : ms[i]? = some a) (hb : ms[j]? = some b) :
    a.eo ≤ b.eo := by
  rcases Nat.lt_or_eq_of_le hij with hlt | rfl
  · have := h.lt hlt ha hb; have := h.fine b (List.mem_of_getElem? hb); omega
  · rw [ha] at hb; cases hb; omega

/-- The scores from one match up to another. -/
def sumR (ms : List Mt) (s t : Nat) : Int := (((ms.drop s).take (t - s)).map (·.score)).sum

theorem sumR_self (ms : List Mt) (s : Nat) : sumR ms s s = 0 := by simp [sumR]

theorem sumR_add (ms : List Mt) {a b c : Nat} (h1 : a ≤ b) (h2 : b ≤ c) : sumR ms a b + sumR ms b c = sumR ms a c := by
  unfold sumR
  have e : c - a = (b - a) + (c - b) := by omega
  rw [e, List.take_add, List.map_append, List.sum_append, List.drop_drop, show a + (b - a) = b by omega]

theorem sumR_one (ms : List Mt) {s : Nat} {m : Mt} (h : ms[s]? = some m) : sumR ms s (s + 1) = m.score := by
  unfold sumR
  obtain ⟨hs, rfl⟩ := List.getElem?_eq_some_iff.1 h
  rw [show s + 1 - s = 1 by omega, List.drop_eq_getElem_cons hs]
  simp only [List.take_succ_cons, List.take_zero, List.map_cons, List.map_nil, List.sum_cons, List.sum_nil]
  omega

theorem advance_spec (lim : Int) : ∀ l : List Mt, (advance lim l).1 ≤ l.length ∧ (∀ k m, k < (advance lim l).1 → l[k]? = some m → m.eo ≤ lim) ∧
    (∀ m, l[(advance lim l).1]? = some m → lim < m.eo) ∧ (advance lim l).2 = ((l.take (advance lim l).1).map (·.score)).sum := by
  intro l
  induction l with
  | nil => simp [advance]
  | cons x l ih =>
    obtain ⟨h1, h2, h3, h4⟩ := ih
    unfold advance
    by_cases hx : x.eo ≤ lim
    · simp only [if_pos hx]
      refine ⟨by simp; omega, ?_, ?_, by simp [h4]⟩
      · intro k m hk hm
        cases k with
        | zero => simp at hm; subst hm; exact hx
        | succ k => exact h2 k m (by omega) (by simpa using hm)
      · intro m hm; exact h3 m (by simpa using hm)
    · simp only [if_neg hx]
      refine ⟨by simp, by intro k m hk; omega, ?_, by simp⟩
      intro m hm
      simp at hm
      subst hm
      omega

/-- The excerpt is a window of the matches. -/
def IsWin (len : Int) (ms : List Mt) (e : Ex) : Prop :=
  ∃ s t : Nat, e.start = s ∧ e.stop = t ∧ IsWindow len (ms.map hitOf) (s, t)

theorem map_hit {ms : List Mt} {i : Nat} {h : Hit} (e : (ms.map hitOf)[i]? = some h) : ∃ m, ms[i]? = some m ∧ hitOf m = h := by
  rw [List.getElem?_map, Option.map_eq_some_iff] at e
  exact e

theorem candLoop_spec {len : Int} {ms : List Mt} (hf : Fit len ms) : ∀ (n eStart eEnd : Nat) (running : Int) (q : PQ Ex),
    eStart + n = ms.length → eStart ≤ eEnd → eEnd ≤ ms.length → running = sumR ms eStart eEnd →
    (∀ k m m', eStart ≤ k → k < eEnd → ms[k]? = some m → ms[eStart]? = some m' → m.eo ≤ m'.so + len) → Inv exLt q →
    ∃ (q' : PQ Ex) (new : List Ex), candLoop len ms n eStart eEnd running q = .ok q' ∧ Inv exLt q' ∧ q'.heap.Perm (new ++ q.heap) ∧
      new.map (·.start) = (List.range' eStart n).map (fun k : Nat => (k : Int)) ∧
      ∀ e ∈ new, ∃ s t : Nat, e.start = s ∧ e.stop = t ∧ IsWindow len (ms.map hitOf) (s, t) ∧ e.score = sumR ms s (t + 1) := by
  intro n
  induction n with
  | zero =>
    intro eStart eEnd running q _ _ _ _ _ hq
    exact ⟨q, [], rfl, hq, by simp, by simp, by simp⟩
  | succ n ih =>
    intro eStart eEnd running q h1 h2 h3 h4 h5 hq
    have hlt : eStart < ms.length := by omega
    have hm : ms[eStart]? = some ms[eStart] := List.getElem?_eq_getElem hlt
    have hb : begun eStart eEnd running = (eEnd, running) := by unfold begun; rw [if_neg (by omega)]
    simp only [candLoop, hm, Res.ofOption, Res.ok_bind, hb]
    generalize hm0 : ms[eStart] = m at hm
    obtain ⟨a1, a2, a3, a4⟩ := advance_spec (m.so + len) (ms.drop eEnd)
    generalize advance (m.so + len) (ms.drop eEnd) = a at *
    simp only [List.length_drop] at a1
    have hs : running + a.2 = sumR ms eStart (eEnd + a.1) := by
      rw [a4, h4, ← sumR_add ms h2 (show eEnd ≤ eEnd + a.1 by omega)]
      unfold sumR
      rw [show eEnd + a.1 - eEnd = a.1 by omega]
    have hwithin : ∀ k x, eStart ≤ k → k < eEnd + a.1 → ms[k]? = some x → x.eo ≤ m.so + len := by
      intro k x hk1 hk2 hx
      by_cases hk : k < eEnd
      · exact h5 k x m hk1 hk hx hm
      · refine a2 (k - eEnd) x (by omega) ?_
        rw [List.getElem?_drop, show eEnd + (k - eEnd) = k by omega]; exact hx
    have hgt : eStart < eEnd + a.1 := by
      by_cases he : eStart < eEnd
      · omega
      · have hee : eEnd = eStart := by omega
        refine Nat.lt_of_not_le fun hle => ?_
        have ha0 : a.1 = 0 := by omega
        have := a3 m (by rw [List.getElem?_drop, ha0, hee]; exact hm)
        have := hf.short m (List.mem_of_getElem? hm)
        omega
    have hwin : IsWindow len (ms.map hitOf) (eStart, eEnd + a.1 - 1) := by
      refine ⟨by simp only; omega, by simp only [List.length_map]; omega, ?_, ?_⟩
      · intro x y hx hy
        obtain ⟨x', hx1, rfl⟩ := map_hit hx
        obtain ⟨y', hy1, rfl⟩ := map_hit hy
        simp only at hx1 hy1
        rw [hm] at hx1; cases hx1
        exact hwithin _ _ (by omega) (by omega) hy1
      · intro x y hx hy
        obtain ⟨x', hx1, rfl⟩ := map_hit hx
        obtain ⟨y', hy1, rfl⟩ := map_hit hy
        simp only at hx1 hy1
        rw [hm] at hx1; cases hx1
        refine a3 y' ?_
        rw [List.getElem?_drop, show eEnd + a.1 = eEnd + a.1 - 1 + 1 by omega]; exact hy1
    obtain ⟨q1, p1, p2, p3, p4⟩ := push_spec exLt_weak q (exNew eStart ((eEnd + a.1 : Nat) - 1) (running + a.2)) hq
    rw [p1, Res.ok_bind]
    obtain ⟨q', new, i1, i2, i3, i4, i5⟩ := ih (eStart + 1) (eEnd + a.1) (running + a.2 - m.score) q1 (by omega) (by omega) (by omega)
      (by
        rw [hs, ← sumR_add ms (show eStart ≤ eStart + 1 by omega) (show eStart + 1 ≤ eEnd + a.1 by omega), sumR_one ms hm]
        omega)
      (by
        intro k x x' hk1 hk2 hx hx'
        have := hwithin k x (by omega) hk2 hx
        have := hf.so_le (show eStart ≤ eStart + 1 by omega) hm hx'
        omega) p2
    refine ⟨q', exNew eStart ((eEnd + a.1 : Nat) - 1) (running + a.2) :: new, i1, i2, ?_, ?_, ?_⟩
    · refine i3.trans ?_
      refine (List.Perm.append_left new p4).trans ?_
      exact List.perm_middle
    · simp only [List.map_cons, i4, List.range'_succ]
      rfl
    · intro e he
      rcases List.mem_cons.1 he with rfl | he
      · refine ⟨eStart, eEnd + a.1 - 1, rfl, ?_, hwin, ?_⟩
        · simp only [exNew]; omega
        · simp only [exNew]; rw [show eEnd + a.1 - 1 + 1 = eEnd + a.1 by omega]; exact hs
      · exact i5 e he

/-- A window is known by its first match. -/
theorem IsWindow.unique {len : Int} {ms : List Mt} (hf : Fit len ms) {s t t' : Nat} (h : IsWindow len (ms.map hitOf) (s, t))
    (h' : IsWindow len (ms.map hitOf) (s, t')) : t = t' := by
  have key : ∀ a b : Nat, IsWindow len (ms.map hitOf) (s, a) → IsWindow len (ms.map hitOf) (s, b) → ¬ a < b := by
    intro a b ha hb hlt
    have h1 := ha.order
    have h2 := hb.there
    simp only [List.length_map] at h1 h2
    have e1 : ms[s]? = some ms[s] := List.getElem?_eq_getElem (by omega)
    have e2 : ms[a + 1]? = some ms[a + 1] := List.getElem?_eq_getElem (by omega)
    have e3 : ms[b]? = some ms[b] := List.getElem?_eq_getElem (by omega)
    have := ha.all (hitOf ms[s]) (hitOf ms[a + 1]) (by simp [e1]) (by simp [e2])
    have := hb.within (hitOf ms[s]) (hitOf ms[b]) (by simp [e1]) (by simp [e3])
    have := hf.eo_le (show a + 1 ≤ b by omega) e2 e3
    simp only [hitOf] at *
    omega
  have := key t t' h h'
  have := key t' t h' h
  omega

/-- Windows that begin later do not end earlier. -/
theorem IsWindow.mono {len : Int} {ms : List Mt} (hf : Fit len ms) {s t s' t' : Nat} (h : IsWindow len (ms.map hitOf) (s, t))
    (h' : IsWindow len (ms.map hitOf) (s', t')) (hs : s ≤ s') : t ≤ t' := by
  refine Nat.le_of_not_lt fun hlt => ?_
  have h1 := h.order
  have h2 := h.there
  have h3 := h'.order
  simp only [List.length_map] at h1 h2 h3
  have e1 : ms[s]? = some ms[s] := List.getElem?_eq_getElem (by omega)
  have e1' : ms[s']? = some ms[s'] := List.getElem?_eq_getElem (by omega)
  have e2 : ms[t]? = some ms[t] := List.getElem?_eq_getElem (by omega)
  have e3 : ms[t' + 1]? = some ms[t' + 1] := List.getElem?_eq_getElem (by omega)
  have := h.within (hitOf ms[s]) (hitOf ms[t]) (by simp [e1]) (by simp [e2])
  have := h'.all (hitOf ms[s']) (hitOf ms[t' + 1]) (by simp [e1']) (by simp [e3])
  have := hf.eo_le (show t' + 1 ≤ t by omega) e3 e2
  have := hf.so_le hs e1 e1'
  simp only [hitOf] at *
  omega

end Ferret.Excerpt
