import Verif.Lemmas.SpanOr

/-! The enumerator of the spans of several terms. -/

namespace Ferret.Span

open Ferret.Phrase (Tde tdeNext tdeSkipTo tdeNextPosition intMax DocsOK)
open Ferret.Post (Posting)
open Ferret.Spec (SpLe SpLex Proper StrictWeak)

/-- Strictly in order of document and position. -/
def SpBefore (a b : Sp) : Prop := a.doc < b.doc ∨ a.doc = b.doc ∧ a.start < b.start

/-- The span of a position. -/
def one (d p : Int) : Sp := ⟨d, p, p + 1⟩

/-- What is ahead of a wrapper. -/
def wAhead (w : Tpew) : List Sp := occSpans w.doc w.tde.left ++ termSpans w.tde.rest

def wAt (w : Tpew) : Sp := one w.doc w.pos

/-- What a wrapper has yet to give: one that has not found a document has nothing. -/
def wAll (w : Tpew) : List Sp := wAt w :: wAhead w

structure DocsPos (ps : List Posting) : Prop where
  freq : ∀ p ∈ ps, p.freq = p.occ.length ∧ 0 < p.freq
  pos : ∀ p ∈ ps, ∀ x ∈ p.occ, 0 ≤ x

/-- A wrapper in the queue. -/
structure WOK (w : Tpew) : Prop where
  tdoc : w.tde.doc = w.doc
  docs : DocsPos w.tde.rest
  pos : ∀ x ∈ w.tde.left, 0 ≤ x
  asc : (wAll w).Pairwise SpBefore

theorem tpewLt_weak : StrictWeak tpewLt where
  asymm a b h := by simp only [tpewLt, decide_eq_true_eq, decide_eq_false_iff_not] at *; omega
  negTrans a b c h1 h2 := by simp only [tpewLt, decide_eq_false_iff_not] at *; omega

/-- Reading the first position of the next document. -/
theorem tpewRead_spec {t : Tde} {p : Posting} {ps : List Posting} (h : t.rest = p :: ps) (hd : DocsPos (p :: ps))
    (hs : (termSpans (p :: ps)).Pairwise SpBefore) : (tdeNext t).1 = true ∧ WOK (tpewRead (tdeNext t).2) ∧
      wAll (tpewRead (tdeNext t).2) = termSpans (p :: ps) ∧ tdeLeft (tpewRead (tdeNext t).2).tde + 1 = (termSpans (p :: ps)).length := by
  have hp := hd.freq p (List.mem_cons_self ..)
  cases ho : p.occ with
  | nil => rw [ho] at hp; simp at hp; omega
  | cons x l =>
    have e1 : tdeNext t = (true, ⟨p.doc, p.freq, x :: l, ps⟩) := by simp [tdeNext, h, ho]
    have e2 : tpewRead (tdeNext t).2 = ⟨⟨p.doc, p.freq, l, ps⟩, p.doc, x⟩ := by rw [e1]; rfl
    have e3 : wAll (tpewRead (tdeNext t).2) = termSpans (p :: ps) := by
      rw [e2]; simp [wAll, wAt, wAhead, one, termSpans, occSpans, ho]
    refine ⟨by rw [e1], ⟨?_, ?_, ?_, by rw [e3]; exact hs⟩, e3, ?_⟩
    · rw [e2]
    · rw [e2]; exact ⟨fun q hq => hd.freq q (List.mem_cons_of_mem _ hq), fun q hq => hd.pos q (List.mem_cons_of_mem _ hq)⟩
    · rw [e2]
      intro y hy
      exact hd.pos p (List.mem_cons_self ..) y (by rw [ho]; exact List.mem_cons_of_mem _ hy)
    · rw [e2]
      simp [tdeLeft, termSpans, occSpans, ho, List.length_flatMap]
      try omega

/-- The number of positions ahead. -/
theorem wAhead_length (w : Tpew) : (wAhead w).length = tdeLeft w.tde := by
  simp [wAhead, tdeLeft, termSpans, occSpans, List.length_flatMap]

/-- `next` of a wrapper goes to the next of its spans. -/
theorem tpewNext_spec {w : Tpew} (h : WOK w) : match wAhead w with
    | [] => (tpewNext w).1 = false
    | K => (tpewNext w).1 = true ∧ WOK (tpewNext w).2 ∧ wAll (tpewNext w).2 = K := by
  have hasc := (List.pairwise_cons.1 h.asc).2
  unfold tpewNext
  cases hl : w.tde.left with
  | cons x l =>
    have e1 : tdeNextPosition w.tde = (x, { w.tde with left := l }) := by simp [tdeNextPosition, hl]
    have hx := h.pos x (by rw [hl]; exact List.mem_cons_self ..)
    have e2 : wAhead w = one w.doc x :: (occSpans w.doc l ++ termSpans w.tde.rest) := by
      simp [wAhead, hl, occSpans, one]
    rw [e2] at hasc
    simp only [e1, e2]
    rw [if_neg (by omega)]
    refine ⟨rfl, ⟨h.tdoc, h.docs, fun y hy => h.pos y (by rw [hl]; exact List.mem_cons_of_mem _ hy), hasc⟩, rfl⟩
  | nil =>
    have e1 : tdeNextPosition w.tde = (-1, w.tde) := by simp [tdeNextPosition, hl]
    have e2 : wAhead w = termSpans w.tde.rest := by simp [wAhead, hl, occSpans]
    rw [e2] at hasc
    simp only [e1, e2]
    rw [if_pos (by decide)]
    cases hr : w.tde.rest with
    | nil => simp [termSpans, tdeNext, hr]
    | cons p ps =>
      rw [hr] at hasc
      have hd := h.docs
      rw [hr] at hd
      obtain ⟨h1, h2, h3, h4⟩ := tpewRead_spec hr hd hasc
      cases hK : termSpans (p :: ps) with
      | nil => rw [hK] at h4; simp at h4
      | cons y K =>
        simp only [h1, if_true]
        exact ⟨trivial, h2, h3.trans hK⟩

/-- `skip_to` of a wrapper with the documents `ps` ahead. -/
theorem tpewSkipTo_spec {w : Tpew} {t : Int} (hd : DocsPos w.tde.rest) (hasc : (termSpans w.tde.rest).Pairwise SpBefore) :
    match (termSpans w.tde.rest).dropWhile (docLt t) with
    | [] => (tpewSkipTo w t).1 = false ∧ (tpewSkipTo w t).2.doc = w.doc ∧ (tpewSkipTo w t).2.tde.rest = []
    | K => (tpewSkipTo w t).1 = true ∧ WOK (tpewSkipTo w t).2 ∧ wAll (tpewSkipTo w t).2 = K := by
  have e0 := dropWhile_termSpans t hd.freq
  unfold tpewSkipTo
  cases hr : w.tde.rest.dropWhile (fun p => decide ((p.doc : Int) < t)) with
  | nil =>
    rw [e0, hr]
    simp [termSpans, tdeSkipTo, hr, tdeNext]
  | cons p ps =>
    have hsub : (p :: ps).Sublist w.tde.rest := by rw [← hr]; exact List.dropWhile_sublist _
    have hd' : DocsPos (p :: ps) := ⟨fun q hq => hd.freq q (hsub.subset hq), fun q hq => hd.pos q (hsub.subset hq)⟩
    have hs' : (termSpans (p :: ps)).Pairwise SpBefore := by
      rw [← hr, ← e0]; exact hasc.sublist (List.dropWhile_sublist _)
    rw [e0, hr]
    obtain ⟨h1, h2, h3, h4⟩ := tpewRead_spec (t := { w.tde with rest := p :: ps }) rfl hd' hs'
    have e1 : tdeSkipTo w.tde t = tdeNext { w.tde with rest := p :: ps } := by simp [tdeSkipTo, hr]
    cases hK : termSpans (p :: ps) with
    | nil => rw [hK] at h4; simp at h4
    | cons y K =>
      rw [e1]
      simp only [h1, if_true]
      exact ⟨trivial, h2, h3.trans hK⟩

/-! ### The queue -/

def hTotal (ws : List Tpew) : List Sp := ws.flatMap wAll

theorem heapLeft_perm {a b : List Tpew} (h : a.Perm b) : heapLeft a = heapLeft b := (h.map _).sum_nat

theorem hTotal_mem {a b : List Tpew} (h : a.Perm b) (x : Sp) : x ∈ hTotal a ↔ x ∈ hTotal b := (h.flatMap_right _).mem_iff

theorem before_trans {a b c : Sp} (h : SpBefore a b) (g : SpBefore b c) : SpBefore a c := by unfold SpBefore at *; omega

theorem before_irrefl (a : Sp) : ¬ SpBefore a a := by unfold SpBefore; omega

/-- All spans are positions. -/
theorem wAll_one {w : Tpew} : ∀ x ∈ wAll w, x = one x.doc x.start := by
  intro x hx
  rcases List.mem_cons.1 hx with rfl | hx
  · rfl
  · rcases List.mem_append.1 hx with hx | hx
    · obtain ⟨p, _, rfl⟩ := List.mem_map.1 hx; rfl
    · obtain ⟨q, _, hx⟩ := List.mem_flatMap.1 hx
      obtain ⟨p, _, rfl⟩ := List.mem_map.1 hx; rfl

/-- The top of the queue is the first of all spans. -/
theorem top_first {q : PQ.PQ Tpew} (hq : PQ.Inv tpewLt q) (hw : ∀ w ∈ q.heap, WOK w) {w : Tpew} (ht : PQ.top q = some w) :
    ∀ x ∈ hTotal q.heap, x = wAt w ∨ SpBefore (wAt w) x := by
  have hmin := PQ.heap_top_min tpewLt_weak hq.heap w ht
  intro x hx
  obtain ⟨v, hv, hx⟩ := List.mem_flatMap.1 hx
  have h1 := hmin v hv
  simp only [tpewLt, decide_eq_false_iff_not] at h1
  rcases List.mem_cons.1 hx with rfl | hx
  · by_cases h : v.doc = w.doc ∧ v.pos = w.pos
    · left; simp [wAt, one, h.1, h.2]
    · right; simp only [SpBefore, wAt, one]; omega
  · have := (List.pairwise_cons.1 (hw v hv).asc).1 x hx
    right
    simp only [SpBefore, wAt, one] at *
    omega

/-- The top moves on. -/
theorem next_top {q : PQ.PQ Tpew} (hq : PQ.Inv tpewLt q) (hw : ∀ w ∈ q.heap, WOK w) {w : Tpew} {rest : List Tpew} (ht : q.heap = w :: rest) :
    ∃ q', settle tpewLt q (tpewNext w) = .ok q' ∧ PQ.Inv tpewLt q' ∧ (∀ w ∈ q'.heap, WOK w) ∧
      (∀ x, x ∈ hTotal q'.heap ↔ x ∈ wAhead w ∨ x ∈ hTotal rest) ∧ heapLeft q'.heap < heapLeft q.heap := by
  have hww := hw w (by rw [ht]; exact List.mem_cons_self ..)
  have hrest : ∀ v ∈ rest, WOK v := fun v hv => hw v (by rw [ht]; exact List.mem_cons_of_mem _ hv)
  have hm := tpewNext_spec hww
  have hleft : heapLeft q.heap = heapLeft rest + (tdeLeft w.tde + 1) := by rw [ht]; simp [heapLeft]; omega
  cases hK : wAhead w with
  | nil =>
    rw [hK] at hm
    obtain ⟨q', h1, h2, h3⟩ := settle_false tpewLt_weak hq ht (tpewNext w).2
    refine ⟨q', ?_, h2, fun v hv => hrest v (h3.mem_iff.1 hv), fun x => ?_, ?_⟩
    · rw [show tpewNext w = (false, (tpewNext w).2) from Prod.ext hm rfl]; exact h1
    · rw [hTotal_mem h3]; simp
    · rw [heapLeft_perm h3]; omega
  | cons y K =>
    rw [hK] at hm
    obtain ⟨h4, h5, h6⟩ := hm
    obtain ⟨q', h1, h2, h3⟩ := settle_true tpewLt_weak hq ht (tpewNext w).2
    refine ⟨q', ?_, h2, fun v hv => ?_, fun x => ?_, ?_⟩
    · rw [show tpewNext w = (true, (tpewNext w).2) from Prod.ext h4 rfl]; exact h1
    · rcases List.mem_cons.1 (h3.mem_iff.1 hv) with rfl | h
      · exact h5
      · exact hrest v h
    · rw [hTotal_mem h3, hTotal, List.flatMap_cons, List.mem_append, h6]; rfl
    · rw [heapLeft_perm h3, hleft]
      have h7 : (wAll (tpewNext w).2).length = tdeLeft w.tde := by rw [h6, ← hK, wAhead_length]
      rw [wAll, List.length_cons, wAhead_length] at h7
      simp only [heapLeft, List.map_cons, List.sum_cons]
      omega

/-- The loop passes all wrappers at the position. -/
theorem multiLoop_spec (z : Sp) : ∀ (fuel : Nat) (q : PQ.PQ Tpew) (w : Tpew) (rest : List Tpew),
    PQ.Inv tpewLt q → (∀ w ∈ q.heap, WOK w) → q.heap = w :: rest → wAt w = z → heapLeft q.heap ≤ fuel →
    ∃ q', multiLoop z.doc z.start (fuel + 1) q w = .ok q' ∧ PQ.Inv tpewLt q' ∧ (∀ w ∈ q'.heap, WOK w) ∧
      (∀ x, x ∈ hTotal q'.heap ↔ x ∈ hTotal q.heap ∧ x ≠ z)
  | fuel, q, w, rest, hq, hw, ht, hz, hf => by
    unfold multiLoop
    obtain ⟨q1, h1, h2, h3, h4, h5⟩ := next_top hq hw ht
    rw [h1, Res.ok_bind]
    have hfirst := top_first hq hw (w := w) (by rw [PQ.top, ht]; rfl)
    have hmem : ∀ x, x ∈ hTotal q.heap ∧ x ≠ z ↔ x ∈ hTotal q1.heap ∧ x ≠ z := by
      intro x
      rw [h4, ht, hTotal, List.flatMap_cons, List.mem_append, wAll, List.mem_cons, hz]
      constructor
      · rintro ⟨(h | h) | h, hx⟩
        · exact absurd h hx
        · exact ⟨.inl h, hx⟩
        · exact ⟨.inr h, hx⟩
      · rintro ⟨h | h, hx⟩
        · exact ⟨.inl (.inr h), hx⟩
        · exact ⟨.inr h, hx⟩
    cases hq1 : q1.heap with
    | nil =>
      have : PQ.top q1 = none := by rw [PQ.top, hq1]; rfl
      rw [this]
      refine ⟨q1, rfl, h2, h3, fun x => ?_⟩
      rw [hmem, hq1]; simp [hTotal]
    | cons v rest1 =>
      have htop : PQ.top q1 = some v := by rw [PQ.top, hq1]; rfl
      rw [htop]
      dsimp only
      by_cases hv : v.doc = z.doc ∧ v.pos = z.start
      · rw [if_pos hv]
        have hvz : wAt v = z := by
          rw [← hz] at hv ⊢
          simp only [wAt, one] at hv ⊢
          simp [hv.1, hv.2]
        cases fuel with
        | zero => omega
        | succ fuel =>
          obtain ⟨q', g1, g2, g3, g4⟩ := multiLoop_spec z fuel q1 v rest1 h2 h3 hq1 hvz (by omega)
          refine ⟨q', g1, g2, g3, fun x => ?_⟩
          rw [g4, ← hmem]
      · rw [if_neg hv]
        refine ⟨q1, rfl, h2, h3, fun x => ?_⟩
        rw [hmem]
        refine ⟨fun h => ⟨h, ?_⟩, fun h => h.1⟩
        rintro rfl
        have hvt : wAt v ∈ hTotal q1.heap := by
          rw [hq1, hTotal, List.flatMap_cons]
          exact List.mem_append_left _ (List.mem_cons_self ..)
        have h6 : wAt v = wAt w ∨ SpBefore (wAt w) (wAt v) := by
          refine hfirst _ ?_
          rw [h4] at hvt
          rw [ht, hTotal, List.flatMap_cons, List.mem_append]
          rcases hvt with h | h
          · exact .inl (List.mem_cons_of_mem _ h)
          · exact .inr h
        rcases top_first h2 h3 htop x h with h7 | h7
        · rw [h7] at hv; exact hv ⟨rfl, rfl⟩
        · rw [hz] at h6
          rcases h6 with h6 | h6
          · rw [h6] at h7; exact before_irrefl _ h7
          · exact before_irrefl _ (before_trans h6 h7)

/-! ### The enumerator -/

/-- What the queue of a started enumerator has ahead. -/
structure MS (q : PQ.PQ Tpew) (L : List Sp) : Prop where
  inv : PQ.Inv tpewLt q
  ok : ∀ w ∈ q.heap, WOK w
  mem : ∀ x, x ∈ L ↔ x ∈ hTotal q.heap

/-- A wrapper that has not been moved. -/
structure Fresh (w : Tpew) : Prop where
  doc : w.doc = -1
  left : w.tde.left = []
  docs : DocsPos w.tde.rest
  asc : (termSpans w.tde.rest).Pairwise SpBefore

structure MultiR (e : MultiE) (_k : Caps) (c : Option Sp) (L : List Sp) : Prop where
  asc : L.Pairwise SpBefore
  cur : match c with
    | none => e.pq = none ∧ e.doc = -1 ∧ (∀ w ∈ e.tpews, Fresh w) ∧ ∀ x, x ∈ L ↔ x ∈ e.tpews.flatMap fun w => termSpans w.tde.rest
    | some x => x = one e.doc e.pos ∧ ∃ q, e.pq = some q ∧ MS q L

def MultiD (e : MultiE) (_k : Caps) : Prop := ∃ q, e.pq = some q ∧ q.heap = []

theorem hTotal_one {ws : List Tpew} {x : Sp} (h : x ∈ hTotal ws) : x = one x.doc x.start := by
  obtain ⟨w, _, h⟩ := List.mem_flatMap.1 h
  exact wAll_one x h

theorem multiNextQ_spec {e : MultiE} {q : PQ.PQ Tpew} {k : Caps} {L : List Sp} (hL : L.Pairwise SpBefore) (h : MS q L) :
    ∃ r, multiNextQ e q = .ok r ∧ Stepped MultiR MultiD k r L := by
  unfold multiNextQ
  cases hq : q.heap with
  | nil =>
    have : PQ.top q = none := by rw [PQ.top, hq]; rfl
    rw [this]
    have : L = [] := by
      cases L with
      | nil => rfl
      | cons z L => have := (h.mem z).1 (List.mem_cons_self ..); rw [hq] at this; simp [hTotal] at this
    subst this
    exact ⟨_, rfl, rfl, q, rfl, hq⟩
  | cons w rest =>
    have htop : PQ.top q = some w := by rw [PQ.top, hq]; rfl
    rw [htop]
    dsimp only
    obtain ⟨q', h1, h2, h3, h4⟩ := multiLoop_spec (wAt w) (heapLeft q.heap) q w rest h.inv h.ok hq rfl (Nat.le_refl _)
    rw [← hq, show multiLoop w.doc w.pos (heapLeft q.heap + 1) q w = .ok q' from h1]
    have hw : wAt w ∈ hTotal q.heap := by
      rw [hq, hTotal, List.flatMap_cons]
      exact List.mem_append_left _ (List.mem_cons_self ..)
    have hfirst := top_first h.inv h.ok htop
    cases L with
    | nil => exact absurd ((h.mem _).2 hw) (by simp)
    | cons z L =>
      have hz : z = wAt w := by
        rcases hfirst z ((h.mem z).1 (List.mem_cons_self ..)) with h5 | h5
        · exact h5
        · rcases List.mem_cons.1 ((h.mem _).2 hw) with h6 | h6
          · exact h6.symm
          · exact absurd (before_trans h5 ((List.pairwise_cons.1 hL).1 _ h6)) (before_irrefl _)
      refine ⟨_, rfl, rfl, (List.pairwise_cons.1 hL).2, ?_, q', rfl, h2, h3, fun x => ?_⟩
      · rw [hz]; rfl
      · rw [h4, ← h.mem, ← hz]
        constructor
        · intro hx
          refine ⟨List.mem_cons_of_mem _ hx, ?_⟩
          rintro rfl
          exact before_irrefl _ ((List.pairwise_cons.1 hL).1 _ hx)
        · rintro ⟨hx, hn⟩
          rcases List.mem_cons.1 hx with h | h
          · exact absurd h hn
          · exact h

/-- `next` of a new wrapper. -/
theorem fresh_next {w : Tpew} (h : Fresh w) : match termSpans w.tde.rest with
    | [] => (tpewNext w).1 = false
    | K => (tpewNext w).1 = true ∧ WOK (tpewNext w).2 ∧ wAll (tpewNext w).2 = K := by
  unfold tpewNext
  have e1 : tdeNextPosition w.tde = (-1, w.tde) := by simp [tdeNextPosition, h.left]
  simp only [e1]
  rw [if_pos (by decide)]
  cases hr : w.tde.rest with
  | nil => simp [termSpans, tdeNext, hr]
  | cons p ps =>
    have hasc := h.asc
    have hd := h.docs
    rw [hr] at hd hasc
    obtain ⟨h1, h2, h3, h4⟩ := tpewRead_spec hr hd hasc
    cases hK : termSpans (p :: ps) with
    | nil => rw [hK] at h4; simp at h4
    | cons y K =>
      simp only [h1, if_true]
      exact ⟨trivial, h2, h3.trans hK⟩

theorem fillNext_spec : ∀ (ws : List Tpew) (q : PQ.PQ Tpew), (∀ w ∈ ws, Fresh w) → PQ.Inv tpewLt q → (∀ w ∈ q.heap, WOK w) →
    ∃ q', fillNext ws q = .ok q' ∧ PQ.Inv tpewLt q' ∧ (∀ w ∈ q'.heap, WOK w) ∧
      ∀ x, x ∈ hTotal q'.heap ↔ x ∈ hTotal q.heap ∨ x ∈ ws.flatMap fun w => termSpans w.tde.rest
  | [], q, _, hq, hw => ⟨q, rfl, hq, hw, by simp⟩
  | w :: ws, q, hf, hq, hw => by
    have hws := fun v hv => hf v (List.mem_cons_of_mem _ hv)
    have hn := fresh_next (hf w (List.mem_cons_self ..))
    unfold fillNext
    dsimp only
    cases hK : termSpans w.tde.rest with
    | nil =>
      rw [hK] at hn
      rw [if_neg (by simp only at hn; simp [hn])]
      obtain ⟨q', h1, h2, h3, h4⟩ := fillNext_spec ws q hws hq hw
      exact ⟨q', h1, h2, h3, fun x => by rw [h4]; simp [hK]⟩
    | cons y K =>
      rw [hK] at hn
      obtain ⟨h1, h2, h3⟩ := hn
      rw [if_pos h1]
      obtain ⟨q1, h4, h5, _, h6⟩ := PQ.push_spec tpewLt_weak q (tpewNext w).2 hq
      rw [h4, Res.ok_bind]
      obtain ⟨q', h7, h8, h9, h10⟩ := fillNext_spec ws q1 hws h5 (fun v hv => by
        rcases List.mem_cons.1 (h6.mem_iff.1 hv) with rfl | h
        · exact h2
        · exact hw v h)
      refine ⟨q', h7, h8, h9, fun x => ?_⟩
      rw [h10, hTotal_mem h6, hTotal, List.flatMap_cons, List.mem_append, h3, List.flatMap_cons, List.mem_append, hK]
      show (_ ∨ x ∈ hTotal q.heap) ∨ _ ↔ _
      constructor
      · rintro ((h | h) | h)
        · exact .inr (.inl h)
        · exact .inl h
        · exact .inr (.inr h)
      · rintro (h | h | h)
        · exact .inl (.inr h)
        · exact .inl (.inl h)
        · exact .inr h

/-! ### Jumps -/

/-- A wrapper while the enumerator jumps to `t`: in the queue, or without a document from `t` on. -/
def Jumping (t : Int) (w : Tpew) : Prop := WOK w ∨ w.doc < t ∧ w.tde.rest = []

/-- The spans from `t` on of a wrapper. -/
def fromT (t : Int) (w : Tpew) : List Sp := if w.doc < t then (termSpans w.tde.rest).dropWhile (docLt t) else wAll w

def late (t : Int) (ws : List Tpew) : List Sp := ws.flatMap (fromT t)

def lag (t : Int) (ws : List Tpew) : Nat := ws.countP fun w => decide (w.doc < t)

theorem lag_le (t : Int) : ∀ ws : List Tpew, lag t ws ≤ heapLeft ws
  | [] => Nat.le_refl _
  | w :: ws => by
    have := lag_le t ws
    simp only [lag, heapLeft, List.countP_cons, List.map_cons, List.sum_cons] at *
    split <;> omega

theorem late_mem {t : Int} {a b : List Tpew} (h : a.Perm b) (x : Sp) : x ∈ late t a ↔ x ∈ late t b := (h.flatMap_right _).mem_iff

/-- What `skip_to` does to a wrapper with the documents ahead. -/
theorem jump_one {w : Tpew} {t : Int} (hd : DocsPos w.tde.rest) (hasc : (termSpans w.tde.rest).Pairwise SpBefore) :
    (tpewSkipTo w t).1 = true ∧ WOK (tpewSkipTo w t).2 ∧ ¬ (tpewSkipTo w t).2.doc < t ∧
      wAll (tpewSkipTo w t).2 = (termSpans w.tde.rest).dropWhile (docLt t) ∨
    (tpewSkipTo w t).1 = false ∧ (tpewSkipTo w t).2.doc = w.doc ∧ (tpewSkipTo w t).2.tde.rest = [] ∧
      (termSpans w.tde.rest).dropWhile (docLt t) = [] := by
  have := tpewSkipTo_spec (t := t) hd hasc
  cases hK : (termSpans w.tde.rest).dropWhile (docLt t) with
  | nil => rw [hK] at this; exact .inr ⟨this.1, this.2.1, this.2.2, rfl⟩
  | cons y K =>
    rw [hK] at this
    refine .inl ⟨this.1, this.2.1, ?_, this.2.2⟩
    have h1 := List.head?_dropWhile_not (docLt t) (termSpans w.tde.rest)
    rw [hK] at h1
    have h2 : wAt (tpewSkipTo w t).2 = y := by
      have := this.2.2
      rw [wAll, List.cons.injEq] at this
      exact this.1
    simp only [List.head?_cons, docLt, decide_eq_false_iff_not, Bool.not_eq_true'] at h1
    rw [← h2] at h1
    simpa [wAt, one] using h1

theorem jumping_docs {t : Int} {w : Tpew} (h : Jumping t w) : DocsPos w.tde.rest ∧ (termSpans w.tde.rest).Pairwise SpBefore := by
  rcases h with h | h
  · exact ⟨h.docs, (List.pairwise_append.1 (List.pairwise_cons.1 h.asc).2).2.1⟩
  · rw [h.2]
    exact ⟨⟨(fun _ h => by cases h), (fun _ h => by cases h)⟩, List.Pairwise.nil⟩

theorem multiSkipLoop_spec (t : Int) : ∀ (fuel : Nat) (q : PQ.PQ Tpew), PQ.Inv tpewLt q → (∀ w ∈ q.heap, Jumping t w) → lag t q.heap < fuel →
    ∃ q', multiSkipLoop t fuel q = .ok q' ∧ PQ.Inv tpewLt q' ∧ (∀ w ∈ q'.heap, WOK w) ∧ ∀ x, x ∈ hTotal q'.heap ↔ x ∈ late t q.heap
  | 0, _, _, _, h => by omega
  | fuel + 1, q, hq, hw, hf => by
    unfold multiSkipLoop
    cases hh : q.heap with
    | nil =>
      have : PQ.top q = none := by rw [PQ.top, hh]; rfl
      rw [this]
      exact ⟨q, rfl, hq, (fun w h => by rw [hh] at h; cases h), (fun x => by rw [hh]; simp [hTotal, late])⟩
    | cons w rest =>
      have htop : PQ.top q = some w := by rw [PQ.top, hh]; rfl
      rw [htop]
      dsimp only
      have hww := hw w (by rw [hh]; exact List.mem_cons_self ..)
      have hrest : ∀ v ∈ rest, Jumping t v := fun v hv => hw v (by rw [hh]; exact List.mem_cons_of_mem _ hv)
      by_cases hd : w.doc < t
      · rw [if_pos hd]
        obtain ⟨hd1, hd2⟩ := jumping_docs hww
        have hlag : lag t q.heap = lag t rest + 1 := by rw [hh]; simp [lag, List.countP_cons, hd]
        have hlate : ∀ x, x ∈ late t (w :: rest) ↔ x ∈ (termSpans w.tde.rest).dropWhile (docLt t) ∨ x ∈ late t rest := by
          intro x
          rw [late, List.flatMap_cons, List.mem_append, fromT, if_pos hd]; rfl
        rcases jump_one (t := t) hd1 hd2 with ⟨h1, h2, h3, h4⟩ | ⟨h1, h2, h3, h4⟩
        · obtain ⟨q1, g1, g2, g3⟩ := settle_true tpewLt_weak hq hh (tpewSkipTo w t).2
          rw [show tpewSkipTo w t = (true, (tpewSkipTo w t).2) from Prod.ext h1 rfl, g1, Res.ok_bind]
          obtain ⟨q', k1, k2, k3, k4⟩ := multiSkipLoop_spec t fuel q1 g2 (fun v hv => by
            rcases List.mem_cons.1 (g3.mem_iff.1 hv) with rfl | h
            · exact .inl h2
            · exact hrest v h) (by
              have : lag t q1.heap = lag t rest := by
                refine (g3.countP_eq _).trans ?_
                rw [List.countP_cons_of_neg (by simpa using h3)]; rfl
              omega)
          refine ⟨q', k1, k2, k3, fun x => ?_⟩
          rw [k4, late_mem g3, hlate, late, List.flatMap_cons, List.mem_append, fromT, if_neg h3, h4]; rfl
        · obtain ⟨q1, g1, g2, g3⟩ := settle_false tpewLt_weak hq hh (tpewSkipTo w t).2
          rw [show tpewSkipTo w t = (false, (tpewSkipTo w t).2) from Prod.ext h1 rfl, g1, Res.ok_bind]
          obtain ⟨q', k1, k2, k3, k4⟩ := multiSkipLoop_spec t fuel q1 g2 (fun v hv => hrest v (g3.mem_iff.1 hv)) (by
              have : lag t q1.heap = lag t rest := g3.countP_eq _
              omega)
          refine ⟨q', k1, k2, k3, fun x => ?_⟩
          rw [k4, late_mem g3, hlate, h4]; simp
      · rw [if_neg (by omega)]
        have hmin := PQ.heap_top_min tpewLt_weak hq.heap w htop
        have hge : ∀ v ∈ q.heap, ¬ v.doc < t := by
          intro v hv
          have := hmin v hv
          simp only [tpewLt, decide_eq_false_iff_not] at this
          omega
        refine ⟨q, rfl, hq, fun v hv => ?_, fun x => ?_⟩
        · rcases hw v hv with h | h
          · exact h
          · exact absurd h.1 (hge v hv)
        · rw [← hh, hTotal, late, List.mem_flatMap, List.mem_flatMap]
          refine exists_congr fun v => ?_
          constructor
          · rintro ⟨h1, h2⟩; exact ⟨h1, by rw [fromT, if_neg (hge v h1)]; exact h2⟩
          · rintro ⟨h1, h2⟩; rw [fromT, if_neg (hge v h1)] at h2; exact ⟨h1, h2⟩

theorem fillSkip_spec (t : Int) (ht : 0 ≤ t) : ∀ (ws : List Tpew) (q : PQ.PQ Tpew), (∀ w ∈ ws, Fresh w) → PQ.Inv tpewLt q → (∀ w ∈ q.heap, Jumping t w) →
    ∃ q', fillSkip t ws q = .ok q' ∧ PQ.Inv tpewLt q' ∧ (∀ w ∈ q'.heap, Jumping t w) ∧
      ∀ x, x ∈ late t q'.heap ↔ x ∈ late t q.heap ∨ x ∈ ws.flatMap fun w => (termSpans w.tde.rest).dropWhile (docLt t)
  | [], q, _, hq, hw => ⟨q, rfl, hq, hw, by simp⟩
  | w :: ws, q, hf, hq, hw => by
    have hws := fun v hv => hf v (List.mem_cons_of_mem _ hv)
    have hfw := hf w (List.mem_cons_self ..)
    unfold fillSkip
    obtain ⟨q1, h4, h5, _, h6⟩ := PQ.push_spec tpewLt_weak q (tpewSkipTo w t).2 hq
    rw [h4, Res.ok_bind]
    have hj : Jumping t (tpewSkipTo w t).2 ∧ fromT t (tpewSkipTo w t).2 = (termSpans w.tde.rest).dropWhile (docLt t) := by
      rcases jump_one (t := t) hfw.docs hfw.asc with ⟨h1, h2, h3, h4⟩ | ⟨h1, h2, h3, h4⟩
      · exact ⟨.inl h2, by rw [fromT, if_neg h3, h4]⟩
      · have : (tpewSkipTo w t).2.doc < t := by rw [h2, hfw.doc]; omega
        exact ⟨.inr ⟨this, h3⟩, by rw [fromT, if_pos this, h3, h4]; rfl⟩
    obtain ⟨q', h7, h8, h9, h10⟩ := fillSkip_spec t ht ws q1 hws h5 (fun v hv => by
      rcases List.mem_cons.1 (h6.mem_iff.1 hv) with rfl | h
      · exact hj.1
      · exact hw v h)
    refine ⟨q', h7, h8, h9, fun x => ?_⟩
    rw [h10, late_mem h6, late, List.flatMap_cons, List.mem_append, hj.2, List.flatMap_cons, List.mem_append]
    show (_ ∨ x ∈ late t q.heap) ∨ _ ↔ _
    constructor
    · rintro ((h | h) | h)
      · exact .inr (.inl h)
      · exact .inl h
      · exact .inr (.inr h)
    · rintro (h | h | h)
      · exact .inl (.inr h)
      · exact .inl (.inl h)
      · exact .inr h

theorem multiSkipQ_spec {e : MultiE} {q : PQ.PQ Tpew} {k : Caps} {t : Int} {L : List Sp} (hL : L.Pairwise SpBefore)
    (hq : PQ.Inv tpewLt q) (hw : ∀ w ∈ q.heap, Jumping t w) (hm : ∀ x, x ∈ L ↔ x ∈ late t q.heap) :
    ∃ r, multiSkipQ e q t = .ok r ∧ Stepped MultiR MultiD k r L := by
  unfold multiSkipQ
  by_cases h0 : q.heap.length = 0
  · rw [if_pos h0]
    have hn := List.length_eq_zero_iff.1 h0
    have : L = [] := by
      cases L with
      | nil => rfl
      | cons z L => have := (hm z).1 (List.mem_cons_self ..); rw [hn] at this; simp [late] at this
    subst this
    exact ⟨_, rfl, rfl, q, rfl, hn⟩
  · rw [if_neg h0]
    obtain ⟨q', h1, h2, h3, h4⟩ := multiSkipLoop_spec t (heapLeft q.heap + 1) q hq hw (Nat.lt_succ_of_le (lag_le t _))
    rw [h1, Res.ok_bind]
    exact multiNextQ_spec hL ⟨h2, h3, fun x => by rw [hm, h4]⟩

theorem mem_dropWhile_doc {L : List Sp} (h : L.Pairwise SpBefore) (t : Int) (x : Sp) : x ∈ L.dropWhile (docLt t) ↔ x ∈ L ∧ ¬ x.doc < t := by
  induction L with
  | nil => simp
  | cons y L ih =>
    obtain ⟨h1, h2⟩ := List.pairwise_cons.1 h
    by_cases hy : y.doc < t
    · rw [List.dropWhile_cons_of_pos (by simpa [docLt] using hy), ih h2, List.mem_cons]
      constructor
      · rintro ⟨a, b⟩; exact ⟨.inr a, b⟩
      · rintro ⟨rfl | a, b⟩
        · exact absurd hy b
        · exact ⟨a, b⟩
    · rw [List.dropWhile_cons_of_neg (by simpa [docLt] using hy)]
      refine ⟨fun hx => ⟨hx, ?_⟩, fun hx => hx.1⟩
      rcases List.mem_cons.1 hx with rfl | hx
      · exact hy
      · have := h1 x hx
        unfold SpBefore at this; omega

theorem length_le_of_mem {L M : List Sp} (h : L.Pairwise SpBefore) (hm : ∀ x ∈ L, x ∈ M) : L.length ≤ M.length := by
  induction L generalizing M with
  | nil => exact Nat.zero_le _
  | cons x L ih =>
    obtain ⟨h1, h2⟩ := List.pairwise_cons.1 h
    have hx := hm x (List.mem_cons_self ..)
    obtain ⟨A, B, rfl⟩ := List.append_of_mem hx
    have := ih (M := A ++ B) h2 fun y hy => by
      have h3 := hm y (List.mem_cons_of_mem _ hy)
      have hne : y ≠ x := by rintro rfl; exact before_irrefl _ (h1 _ hy)
      simp only [List.mem_append, List.mem_cons, hne, false_or] at h3 ⊢
      exact h3
    simp only [List.length_append, List.length_cons] at *
    omega

theorem good_multi : Good multiOps MultiR MultiD where
  left := by
    intro s k c L h
    have hc := h.cur
    cases c with
    | none =>
      obtain ⟨h1, _, _, h2⟩ := hc
      simp only [multiOps, h1]
      refine Nat.le_trans (length_le_of_mem h.asc fun x hx => (h2 x).1 hx) ?_
      clear h2 h1
      induction s.tpews with
      | nil => exact Nat.le_refl _
      | cons w ws ih =>
        simp only [List.flatMap_cons, List.length_append, heapLeft, List.map_cons, List.sum_cons, tdeLeft] at *
        have : (termSpans w.tde.rest).length = (w.tde.rest.map fun p => p.occ.length).sum := by
          simp [termSpans, occSpans, List.length_flatMap]
        omega
    | some x =>
      obtain ⟨_, q, h1, h2⟩ := hc
      simp only [multiOps, h1]
      refine Nat.le_trans (length_le_of_mem h.asc fun x hx => (h2.mem x).1 hx) ?_
      clear h2 h1
      induction q.heap with
      | nil => exact Nat.le_refl _
      | cons w ws ih =>
        simp only [hTotal, List.flatMap_cons, List.length_append, heapLeft, List.map_cons, List.sum_cons, wAll, List.length_cons, wAhead_length] at *
        omega
  cur := by
    intro s k x L h
    have := h.cur.1
    rw [this]; rfl
  early := by
    intro s k L h _
    exact ⟨_, rfl, h.cur.2.1⟩
  next := by
    intro s k c L h _
    show ∃ r, multiNext s = .ok r ∧ _
    unfold multiNext
    have hc := h.cur
    cases c with
    | none =>
      obtain ⟨h1, _, h3, h4⟩ := hc
      rw [h1]
      dsimp only
      obtain ⟨q', g1, g2, g3, g4⟩ := fillNext_spec s.tpews.reverse (PQ.new s.tpews.length) (fun w hw => h3 w (List.mem_reverse.1 hw))
        (PQ.inv_new _ _) (fun w hw => nomatch hw)
      rw [g1, Res.ok_bind]
      refine multiNextQ_spec h.asc ⟨g2, g3, fun x => ?_⟩
      rw [g4, h4]
      simp [hTotal, PQ.new, List.mem_flatMap]
    | some x =>
      obtain ⟨_, q, h1, h2⟩ := hc
      rw [h1]
      exact multiNextQ_spec h.asc h2
  skip := by
    intro s k c L t h _ _ hb
    show ∃ r, multiSkipTo s t = .ok r ∧ _
    unfold multiSkipTo
    have hL : (L.dropWhile (docLt t)).Pairwise SpBefore := h.asc.sublist (List.dropWhile_sublist _)
    have hc := h.cur
    cases c with
    | none =>
      obtain ⟨h1, _, h3, h4⟩ := hc
      rw [h1]
      dsimp only
      obtain ⟨q', g1, g2, g3, g4⟩ := fillSkip_spec t hb s.tpews.reverse (PQ.new s.tpews.length) (fun w hw => h3 w (List.mem_reverse.1 hw))
        (PQ.inv_new _ _) (fun w hw => nomatch hw)
      rw [g1, Res.ok_bind]
      refine multiSkipQ_spec hL g2 g3 fun x => ?_
      rw [g4, mem_dropWhile_doc h.asc, h4]
      simp only [late, PQ.new, List.flatMap_nil, List.not_mem_nil, false_or, List.mem_flatMap, List.mem_reverse]
      constructor
      · rintro ⟨⟨w, h5, h6⟩, h7⟩
        exact ⟨w, h5, (mem_dropWhile_doc (h3 w h5).asc t x).2 ⟨h6, h7⟩⟩
      · rintro ⟨w, h5, h6⟩
        have := (mem_dropWhile_doc (h3 w h5).asc t x).1 h6
        exact ⟨⟨w, h5, this.1⟩, this.2⟩
    | some y =>
      obtain ⟨_, q, h1, h2⟩ := hc
      rw [h1]
      refine multiSkipQ_spec hL h2.inv (fun w hw => .inl (h2.ok w hw)) fun x => ?_
      rw [mem_dropWhile_doc h.asc, h2.mem]
      simp only [hTotal, late, List.mem_flatMap]
      have key : ∀ w ∈ q.heap, x ∈ fromT t w ↔ x ∈ wAll w ∧ ¬ x.doc < t := by
        intro w hw
        have hok := h2.ok w hw
        have hd := jumping_docs (t := t) (.inl hok)
        unfold fromT
        split
        · rename_i hlt
          rw [mem_dropWhile_doc hd.2, wAll, List.mem_cons, wAhead, List.mem_append]
          constructor
          · rintro ⟨a, b⟩; exact ⟨.inr (.inr a), b⟩
          · rintro ⟨rfl | a | a, b⟩
            · exact absurd hlt b
            · obtain ⟨p, _, rfl⟩ := List.mem_map.1 a
              exact absurd hlt b
            · exact ⟨a, b⟩
        · rename_i hge
          refine ⟨fun hx => ⟨hx, ?_⟩, fun hx => hx.1⟩
          rcases List.mem_cons.1 hx with rfl | hx
          · exact hge
          · have := (List.pairwise_cons.1 hok.asc).1 x hx
            simp only [SpBefore, wAt, one] at this; omega
      constructor
      · rintro ⟨⟨w, h5, h6⟩, h7⟩
        exact ⟨w, h5, (key w h5).2 ⟨h6, h7⟩⟩
      · rintro ⟨w, h5, h6⟩
        have := (key w h5).1 h6
        exact ⟨⟨w, h5, this.1⟩, this.2⟩
  late := by
    rintro s k ⟨q, h1, h2⟩ _
    refine ⟨⟨_, rfl⟩, fun t => ⟨{ s with pq := some q, doc := -1 }, ?_, q, rfl, h2⟩⟩
    show multiSkipTo s t = _
    unfold multiSkipTo multiSkipQ
    rw [h1]
    simp [h2]

/-- Documents in order, positions not negative and, in each document, in order. -/
theorem termSpans_before {ps : List Posting} (h : DocsOK ps) (hs : ∀ p ∈ ps, p.occ.Pairwise (· < ·)) : (termSpans ps).Pairwise SpBefore := by
  unfold termSpans
  rw [List.pairwise_flatMap]
  refine ⟨fun p hp => ?_, h.asc.imp ?_⟩
  · rw [occSpans, List.pairwise_map]
    exact (hs p hp).imp fun h => .inr ⟨rfl, h⟩
  · intro a b hab x hx y hy
    obtain ⟨_, _, rfl⟩ := List.mem_map.1 hx
    obtain ⟨_, _, rfl⟩ := List.mem_map.1 hy
    left
    show (a.doc : Int) < b.doc
    omega

/-- A new enumerator. -/
theorem multiR_new {pss : List (List Posting)} (k : Caps) (h : ∀ ps ∈ pss, DocsPos ps ∧ (termSpans ps).Pairwise SpBefore) {L : List Sp}
    (hL : L.Pairwise SpBefore) (hm : ∀ x, x ∈ L ↔ ∃ ps ∈ pss, x ∈ termSpans ps) : MultiR (MultiE.new pss) k none L where
  asc := hL
  cur := by
    refine ⟨rfl, rfl, fun w hw => ?_, fun x => ?_⟩
    · obtain ⟨ps, hps, rfl⟩ := List.mem_map.1 hw
      exact ⟨rfl, rfl, (h ps hps).1, (h ps hps).2⟩
    · rw [hm]
      simp only [MultiE.new, List.mem_flatMap, List.mem_map]
      constructor
      · rintro ⟨ps, h1, h2⟩; exact ⟨_, ⟨ps, h1, rfl⟩, h2⟩
      · rintro ⟨_, ⟨ps, h1, rfl⟩, h2⟩; exact ⟨ps, h1, h2⟩

end Ferret.Span
