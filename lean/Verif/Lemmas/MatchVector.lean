import Verif.Model.MatchVector
import Verif.Spec.Ranges

namespace Ferret.MV
open Ferret Ferret.Spec

/-- A range as the specification sees it. -/
def MR.view (m : MR) : Range := ((m.start, m.stop), m.score)

/-- What one step does to the range being built and the new one. -/
inductive Act where
  | push
  | extend (l : MR)

/-- The two bodies as one: how far apart, and the new range. -/
def act (gap : Int) (merge : MR → MR → MR) (l r : MR) : Act := if r.start > l.stop + gap then .push else .extend (merge l r)

/-- The loop without the array: ranges done, the current one, the rest. -/
def pureLoop (gap : Int) (merge : MR → MR → MR) : List MR → MR → List MR → List MR
  | done, cur, [] => done ++ [cur]
  | done, cur, r :: rs =>
    match act gap merge cur r with
    | .push => pureLoop gap merge (done ++ [cur]) r rs
    | .extend l => pureLoop gap merge done l rs

def mergeCompact (l r : MR) : MR := if r.stop > l.stop then { l with stop := r.stop } else { l with score := l.score + r.score }

def mergeBreaks (l r : MR) : MR := { l with stop := max l.stop r.stop, score := l.score + r.score }

/-- What a body must do, for `right` beyond `left`. -/
def BodyIs (body : List MR → Nat → Nat → Res (List MR × Nat)) (gap : Int) (merge : MR → MR → MR) : Prop :=
  ∀ (m : List MR) (left right : Nat) (l r : MR), left < right → m[left]? = some l → m[right]? = some r →
    body m left right = match act gap merge l r with
      | .push => .ok (m.set (left + 1) r, left + 1)
      | .extend x => .ok (m.set left x, left)

theorem compactBody_is : BodyIs compactBody 1 mergeCompact := by
  intro m left right l r hlt hl hr
  unfold compactBody act mergeCompact
  rw [hl, hr]
  simp only [Res.ofOption, Res.ok_bind]
  have hrl : right < m.length := (List.getElem?_eq_some_iff.1 hr).1
  split
  · rw [if_pos (by omega)]
  · split <;> rfl

theorem breaksBody_is : BodyIs breaksBody 0 mergeBreaks := by
  intro m left right l r hlt hl hr
  unfold breaksBody act mergeBreaks
  rw [hl, hr]
  simp only [Res.ofOption, Res.ok_bind, Int.add_zero]
  have hrl : right < m.length := (List.getElem?_eq_some_iff.1 hr).1
  split
  · rw [if_pos (by omega)]
  · split
    · rw [Int.max_eq_right (by omega)]
    · rw [Int.max_eq_left (by omega)]

theorem loop_pure {body : List MR → Nat → Nat → Res (List MR × Nat)} {gap : Int} {merge : MR → MR → MR} (hb : BodyIs body gap merge) :
    ∀ (rs done : List MR) (cur : MR) (m : List MR) (left right : Nat), left < right → m.take (left + 1) = done ++ [cur] →
    done.length = left → m.drop right = rs → right ≤ m.length →
    ∃ m' left', compactLoop body rs.length right m left = .ok (m', left') ∧ left' + 1 ≤ m'.length ∧ m'.length = m.length ∧
      m'.take (left' + 1) = pureLoop gap merge done cur rs := by
  intro rs
  induction rs with
  | nil =>
    intro done cur m left right hlt ht hd hr hrl
    exact ⟨m, left, rfl, by omega, rfl, ht⟩
  | cons r rs ih =>
    intro done cur m left right hlt ht hd hr hrl
    have hrm : m[right]? = some r := by
      have : (m.drop right)[0]? = some r := by rw [hr]; rfl
      simpa using this
    have hrl' : right < m.length := (List.getElem?_eq_some_iff.1 hrm).1
    have hlm : m[left]? = some cur := by
      have : (m.take (left + 1))[left]? = some cur := by rw [ht, ← hd]; simp
      rw [List.getElem?_take_of_lt (by omega)] at this
      exact this
    have htl : m.take left = done := by
      have := congrArg (List.take left) ht
      rw [List.take_take, Nat.min_eq_left (by omega)] at this
      rw [this, List.take_append_of_le_length (by omega), ← hd, List.take_length]
    simp only [List.length_cons, compactLoop]
    rw [hb m left right cur r hlt hlm hrm]
    unfold pureLoop
    have hdrop : m.drop (right + 1) = rs := by
      rw [← List.drop_drop, hr]; rfl
    cases act gap merge cur r with
    | push =>
      simp only [Res.ok_bind]
      obtain ⟨m', left', e1, e2, e3, e4⟩ := ih (done ++ [cur]) r (m.set (left + 1) r) (left + 1) (right + 1) (by omega)
        (by
          rw [List.take_add_one, List.getElem?_set]
          have : (m.set (left + 1) r).take (left + 1) = m.take (left + 1) := by
            rw [List.take_set_of_le (by omega)]
          rw [this, ht, if_pos rfl, if_pos (by omega)]
          rfl)
        (by simp [hd]) (by rw [List.drop_set_of_lt (by omega)]; exact hdrop) (by simp; omega)
      exact ⟨m', left', e1, e2, by simpa using e3, e4⟩
    | extend x =>
      simp only [Res.ok_bind]
      obtain ⟨m', left', e1, e2, e3, e4⟩ := ih done x (m.set left x) left (right + 1) (by omega)
        (by
          rw [List.take_add_one, List.getElem?_set, List.take_set_of_le (by omega), htl, if_pos rfl, if_pos (by omega)]
          rfl)
        hd (by rw [List.drop_set_of_lt (by omega)]; exact hdrop) (by simp; omega)
      exact ⟨m', left', e1, e2, by simpa using e3, e4⟩

/-- Sorted as match_range_cmp says. -/
def Sorted (l : List MR) : Prop := l.Pairwise fun a b => cmp a b ≤ 0

theorem Sorted.start {a b : MR} (h : cmp a b ≤ 0) : a.start ≤ b.start := by
  unfold cmp at h
  split at h <;> omega

/-- What the loop keeps. -/
structure CInv (gap : Int) (seen done : List MR) (cur : MR) : Prop where
  fine : ∀ m ∈ done ++ [cur], m.start ≤ m.stop
  apart : (done ++ [cur]).Pairwise fun a b => a.stop + gap < b.start
  covers : ∀ p, (∃ m ∈ done ++ [cur], m.start ≤ p ∧ p ≤ m.stop) ↔ ∃ m ∈ seen, m.start ≤ p ∧ p ≤ m.stop

theorem pureLoop_covers {gap : Int} (hgap : 0 ≤ gap) (hg1 : gap ≤ 1) {merge : MR → MR → MR}
    (hm : ∀ l r, (merge l r).start = l.start ∧ (merge l r).stop = max l.stop r.stop) :
    ∀ (rs seen done : List MR) (cur : MR), CInv gap seen done cur → (∀ r ∈ rs, r.start ≤ r.stop) → (∀ r ∈ rs, cur.start ≤ r.start) →
    (rs.Pairwise fun a b => a.start ≤ b.start) →
    ∃ done' cur', pureLoop gap merge done cur rs = done' ++ [cur'] ∧ CInv gap (seen ++ rs) done' cur' := by
  intro rs
  induction rs with
  | nil => intro seen done cur h _ _ _; exact ⟨done, cur, rfl, by simpa using h⟩
  | cons r rs ih =>
    intro seen done cur h hrf hrs hso
    have hso' := List.pairwise_cons.1 hso
    have hcr := hrs r (by simp)
    have hrr := hrf r (by simp)
    unfold pureLoop act
    by_cases hc : r.start > cur.stop + gap
    · rw [if_pos hc]
      simp only
      have := ih (seen ++ [r]) (done ++ [cur]) r ?_ (fun x hx => hrf x (by simp [hx])) hso'.1 hso'.2
      · obtain ⟨d, c, e, i⟩ := this
        exact ⟨d, c, e, by simpa using i⟩
      · refine ⟨?_, ?_, ?_⟩
        · intro m hmm
          rcases List.mem_append.1 hmm with hmm | hmm
          · exact h.fine m hmm
          · simp only [List.mem_singleton] at hmm; subst hmm; exact hrr
        · rw [List.pairwise_append]
          refine ⟨h.apart, by simp, ?_⟩
          intro a ha b hb
          simp only [List.mem_singleton] at hb
          subst hb
          rcases List.mem_append.1 ha with ha | ha
          · have h1 := (List.pairwise_append.1 h.apart).2.2 a ha cur (by simp)
            have h2 := h.fine cur (by simp)
            omega
          · simp only [List.mem_singleton] at ha; subst ha; omega
        · intro p
          have := h.covers p
          constructor
          · rintro ⟨m, hm1, hm2⟩
            rcases List.mem_append.1 hm1 with hm1 | hm1
            · obtain ⟨x, hx, hx2⟩ := this.1 ⟨m, hm1, hm2⟩
              exact ⟨x, by simp [hx], hx2⟩
            · simp only [List.mem_singleton] at hm1; subst hm1
              exact ⟨m, by simp, hm2⟩
          · rintro ⟨x, hx, hx2⟩
            rcases List.mem_append.1 hx with hx | hx
            · obtain ⟨m, hm1, hm2⟩ := this.2 ⟨x, hx, hx2⟩
              exact ⟨m, List.mem_append_left _ hm1, hm2⟩
            · simp only [List.mem_singleton] at hx; subst hx
              exact ⟨x, by simp, hx2⟩
    · rw [if_neg hc]
      simp only
      obtain ⟨m1, m2⟩ := hm cur r
      have hcf := h.fine cur (by simp)
      have := ih (seen ++ [r]) done (merge cur r) ?_ (fun x hx => hrf x (by simp [hx]))
        (fun x hx => by rw [m1]; have := hso'.1 x hx; omega) hso'.2
      · obtain ⟨d, c, e, i⟩ := this
        exact ⟨d, c, e, by simpa using i⟩
      · refine ⟨?_, ?_, ?_⟩
        · intro m hmm
          rcases List.mem_append.1 hmm with hmm | hmm
          · exact h.fine m (by simp [hmm])
          · simp only [List.mem_singleton] at hmm; subst hmm; rw [m1, m2]; omega
        · have hp := List.pairwise_append.1 h.apart
          rw [List.pairwise_append]
          refine ⟨hp.1, by simp, ?_⟩
          intro a ha b hb
          simp only [List.mem_singleton] at hb
          subst hb
          rw [m1]
          exact hp.2.2 a ha cur (by simp)
        · intro p
          have := h.covers p
          constructor
          · rintro ⟨m, hm1, hm2⟩
            rcases List.mem_append.1 hm1 with hm1 | hm1
            · obtain ⟨x, hx, hx2⟩ := this.1 ⟨m, by simp [hm1], hm2⟩
              exact ⟨x, by simp [hx], hx2⟩
            · simp only [List.mem_singleton] at hm1; subst hm1
              rw [m1, m2] at hm2
              by_cases hp : p ≤ cur.stop
              · obtain ⟨x, hx, hx2⟩ := this.1 ⟨cur, by simp, hm2.1, hp⟩
                exact ⟨x, by simp [hx], hx2⟩
              · exact ⟨r, by simp, by omega, by omega⟩
          · rintro ⟨x, hx, hx2⟩
            rcases List.mem_append.1 hx with hx | hx
            · obtain ⟨m, hm1, hm2⟩ := this.2 ⟨x, hx, hx2⟩
              rcases List.mem_append.1 hm1 with hm1 | hm1
              · exact ⟨m, by simp [hm1], hm2⟩
              · simp only [List.mem_singleton] at hm1; subst hm1
                exact ⟨merge m r, by simp, by rw [m1, m2]; omega⟩
            · simp only [List.mem_singleton] at hx; subst hx
              exact ⟨merge cur x, by simp, by rw [m1, m2]; omega⟩

theorem sum_filter_congr {α : Type} (l : List α) (p q : α → Bool) (f : α → Int) (h : ∀ x ∈ l, p x = q x) :
    ((l.filter p).map f).sum = ((l.filter q).map f).sum := by
  rw [List.filter_congr h]

/-- With breaks, each range has the scores of those it was made of. -/
theorem pureLoop_scores : ∀ (rs seen done : List MR) (cur : MR), CInv 0 seen done cur → (∀ r ∈ rs, r.start ≤ r.stop) → (∀ r ∈ rs, cur.start ≤ r.start) →
    (rs.Pairwise fun a b => a.start ≤ b.start) → (∀ x ∈ seen, x.start ≤ x.stop) →
    (∀ o ∈ done ++ [cur], o.score = ((seen.filter fun x => decide (o.start ≤ x.start) && decide (x.start ≤ o.stop)).map (·.score)).sum) →
    ∀ o ∈ pureLoop 0 mergeBreaks done cur rs,
      o.score = (((seen ++ rs).filter fun x => decide (o.start ≤ x.start) && decide (x.start ≤ o.stop)).map (·.score)).sum := by
  intro rs
  induction rs with
  | nil => intro seen done cur _ _ _ _ _ h o ho; simpa [pureLoop] using h o ho
  | cons r rs ih =>
    intro seen done cur hinv hrf hrs hso hsf hsc
    have hso' := List.pairwise_cons.1 hso
    have hcr := hrs r (by simp)
    have hrr := hrf r (by simp)
    have hcf := hinv.fine cur (by simp)
    have hm : ∀ l r, (mergeBreaks l r).start = l.start ∧ (mergeBreaks l r).stop = max l.stop r.stop := fun l r => ⟨rfl, rfl⟩
    -- the invariant after this step, from the loop with one element
    have hone := pureLoop_covers (gap := 0) (by omega) (by omega) hm [r] seen done cur hinv (by simpa using hrr) (by simpa using hcr) (by simp)
    intro o ho
    unfold pureLoop at ho
    by_cases hc : r.start > cur.stop + 0
    · unfold act at ho
      rw [if_pos hc] at ho
      simp only at ho
      have hinv' : CInv 0 (seen ++ [r]) (done ++ [cur]) r := by
        obtain ⟨d, c, e, i⟩ := hone
        simp only [pureLoop, act, if_pos hc] at e
        have := List.append_inj' e rfl
        rw [← this.1] at i
        simp only [List.cons.injEq, and_true] at this
        rw [← this.2] at i
        exact i
      have := ih (seen ++ [r]) (done ++ [cur]) r hinv' (fun x hx => hrf x (by simp [hx])) hso'.1 hso'.2
        (by
          intro x hx
          rcases List.mem_append.1 hx with hx | hx
          · exact hsf x hx
          · simp only [List.mem_singleton] at hx; subst hx; exact hrr)
        (by
          intro q hq
          rcases List.mem_append.1 hq with hq | hq
          · rw [List.filter_append, List.map_append, List.sum_append, hsc q hq]
            have hqs : q.stop < r.start := (List.pairwise_append.1 hinv'.apart).2.2 q hq r (by simp) |> fun h => by omega
            simp [show ¬ r.start ≤ q.stop by omega]
          · simp only [List.mem_singleton] at hq
            subst hq
            rw [List.filter_append, List.map_append, List.sum_append]
            have : seen.filter (fun x => decide (q.start ≤ x.start) && decide (x.start ≤ q.stop)) = [] := by
              rw [List.filter_eq_nil_iff]
              intro x hx hxx
              simp only [Bool.and_eq_true, decide_eq_true_eq] at hxx
              obtain ⟨m, hm1, hm2⟩ := (hinv.covers x.start).2 ⟨x, hx, by omega, hsf x hx⟩
              have := (List.pairwise_append.1 hinv'.apart).2.2 m hm1 q (by simp)
              omega
            rw [this]
            simp [hrr])
        o ho
      simpa using this
    · unfold act at ho
      rw [if_neg hc] at ho
      simp only at ho
      have hinv' : CInv 0 (seen ++ [r]) done (mergeBreaks cur r) := by
        obtain ⟨d, c, e, i⟩ := hone
        simp only [pureLoop, act, if_neg hc] at e
        have := List.append_inj' e rfl
        rw [← this.1] at i
        simp only [List.cons.injEq, and_true] at this
        rw [← this.2] at i
        exact i
      have := ih (seen ++ [r]) done (mergeBreaks cur r) hinv' (fun x hx => hrf x (by simp [hx]))
        (fun x hx => by have := hso'.1 x hx; simp only [mergeBreaks]; omega) hso'.2
        (by
          intro x hx
          rcases List.mem_append.1 hx with hx | hx
          · exact hsf x hx
          · simp only [List.mem_singleton] at hx; subst hx; exact hrr)
        (by
          intro q hq
          rcases List.mem_append.1 hq with hq | hq
          · rw [List.filter_append, List.map_append, List.sum_append, hsc q (by simp [hq])]
            have hqs : q.stop + 0 < cur.start := (List.pairwise_append.1 hinv.apart).2.2 q hq cur (by simp)
            simp [show ¬ r.start ≤ q.stop by omega]
          · simp only [List.mem_singleton] at hq
            subst hq
            rw [List.filter_append, List.map_append, List.sum_append]
            have h1 : ((seen.filter fun x => decide ((mergeBreaks cur r).start ≤ x.start) && decide (x.start ≤ (mergeBreaks cur r).stop)).map (·.score)).sum =
                ((seen.filter fun x => decide (cur.start ≤ x.start) && decide (x.start ≤ cur.stop)).map (·.score)).sum := by
              apply sum_filter_congr
              intro x hx
              simp only [mergeBreaks]
              by_cases hx1 : cur.start ≤ x.start
              · obtain ⟨m, hm1, hm2⟩ := (hinv.covers x.start).2 ⟨x, hx, by omega, hsf x hx⟩
                have hms : m.stop ≤ cur.stop := by
                  rcases List.mem_append.1 hm1 with hm1 | hm1
                  · have := (List.pairwise_append.1 hinv.apart).2.2 m hm1 cur (by simp)
                    omega
                  · simp only [List.mem_singleton] at hm1; subst hm1; omega
                have a1 : x.start ≤ max cur.stop r.stop := by omega
                have a2 : x.start ≤ cur.stop := by omega
                simp [hx1, a1, a2]
              · simp [hx1]
            rw [h1, ← hsc cur (by simp)]
            have a1 : cur.start ≤ r.start := hcr
            have a2 : r.start ≤ max cur.stop r.stop := by omega
            simp [mergeBreaks, a1, a2])
        o ho
      simpa using this

end Ferret.MV
