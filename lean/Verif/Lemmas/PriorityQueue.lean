import Verif.Model.PriorityQueue
import Verif.Spec.Bag

namespace Ferret.PQ

variable {α : Type}

open Ferret.Spec

theorem _root_.Ferret.Spec.StrictWeak.irrefl {lt : α → α → Bool} (h : StrictWeak lt) (a : α) : lt a a = false := by
  cases hh : lt a a with
  | false => rfl
  | true => have := h.asymm a a hh; rw [hh] at this; exact this

/-- Slot `i` as an option (1-based). -/
def at? (h : List α) (i : Nat) : Option α := if i = 0 then none else h[i - 1]?

/-- No child is less than its parent, except possibly the pair (`x`, parent of `x`). -/
def HeapUp (lt : α → α → Bool) (h : List α) (x : Nat) : Prop :=
  ∀ k a b, 2 ≤ k → k ≠ x → at? h k = some a → at? h (k / 2) = some b → lt a b = false

def HeapDown (lt : α → α → Bool) (h : List α) (x : Nat) : Prop :=
  ∀ k a b, 2 ≤ k → k / 2 ≠ x → at? h k = some a → at? h (k / 2) = some b → lt a b = false

/-- The grandchild/grandparent condition around the hole. -/
def Skip (lt : α → α → Bool) (h : List α) (x : Nat) : Prop :=
  ∀ k a b, 2 ≤ x → k / 2 = x → at? h k = some a → at? h (x / 2) = some b → lt a b = false

def IsHeap (lt : α → α → Bool) (h : List α) : Prop :=
  ∀ k a b, 2 ≤ k → at? h k = some a → at? h (k / 2) = some b → lt a b = false

theorem at?_put (h : List α) (i k : Nat) (a : α) (hi : 1 ≤ i) (hl : i ≤ h.length) :
    at? (put h i a) k = if k = i then some a else at? h k := by
  unfold at? put
  by_cases hk0 : k = 0
  · subst hk0; simp; omega
  · simp only [hk0, if_false]
    by_cases hk : k = i
    · subst hk; rw [if_pos rfl, List.getElem?_set_self (by omega)]
    · rw [if_neg hk, List.getElem?_set_ne (by omega)]

theorem slot_eq (h : List α) (i : Nat) (hi : 1 ≤ i) (hl : i ≤ h.length) :
    ∃ a, slot h i = .ok a ∧ at? h i = some a ∧ h[i - 1]? = some a := by
  obtain ⟨k, rfl⟩ : ∃ k, i = k + 1 := ⟨i - 1, by omega⟩
  refine ⟨h[k], ?_, ?_, ?_⟩
  · simp [slot, Res.ofOption, List.getElem?_eq_getElem (show k < h.length by omega)]
  · simp [at?, List.getElem?_eq_getElem (show k < h.length by omega)]
  · simp [List.getElem?_eq_getElem (show k < h.length by omega)]

theorem at?_le {h : List α} {k : Nat} {a : α} (e : at? h k = some a) : 1 ≤ k ∧ k ≤ h.length := by
  unfold at? at e
  split at e
  · simp at e
  · have := List.getElem?_eq_some_iff.mp e
    obtain ⟨h1, _⟩ := this; omega

theorem put_length (h : List α) (i : Nat) (a : α) : (put h i a).length = h.length := by simp [put]

/-- Moving the hole from `i` to `j` is a swap of the conceptual contents. -/
theorem put_swap_perm (h : List α) (i j : Nat) (p node : α) (hi : 1 ≤ i) (hil : i ≤ h.length)
    (hj : 1 ≤ j) (hjl : j ≤ h.length) (hij : i ≠ j) (hp : at? h j = some p) :
    (put (put h i p) j node).Perm (put h i node) := by
  have hp' : h[j - 1]? = some p := by
    unfold at? at hp; rw [if_neg (by omega)] at hp; exact hp
  have h1 : ((put h i node).set (i - 1) ((put h i node)[j - 1]'(by simp [put]; omega))).set (j - 1)
      ((put h i node)[i - 1]'(by simp [put]; omega)) = put (put h i p) j node := by
    unfold put
    have e1 : (h.set (i - 1) node)[j - 1]'(by simp; omega) = p := by
      rw [List.getElem_set_ne (by omega)]
      have := List.getElem?_eq_some_iff.mp hp'
      obtain ⟨_, h2⟩ := this; exact h2
    have e2 : (h.set (i - 1) node)[i - 1]'(by simp; omega) = node := by
      rw [List.getElem_set_self]
    rw [e1, e2, List.set_set]
  rw [← h1]
  exact List.set_set_perm _ _

theorem upLoop_spec {lt : α → α → Bool} (hlt : StrictWeak lt) (node : α) :
    ∀ (fuel : Nat) (h : List α) (i : Nat), i < fuel → 1 ≤ i → i ≤ h.length →
      HeapUp lt (put h i node) i → Skip lt (put h i node) i →
      ∃ r, upLoop lt node fuel h i = .ok r ∧ IsHeap lt r ∧ r.Perm (put h i node) := by
  intro fuel
  induction fuel with
  | zero => intro h i hf; omega
  | succ n ih =>
    intro h i hf hi hl hup hskip
    unfold upLoop
    simp only []
    by_cases hj : i / 2 > 0
    · rw [if_pos hj]
      obtain ⟨p, hs, hat, _⟩ := slot_eq h (i / 2) (by omega) (by omega)
      rw [hs, Res.ok_bind]
      by_cases hc : lt node p = true
      · rw [if_pos hc]
        have hij : i ≠ i / 2 := by omega
        have hput : ∀ k, at? (put (put h i p) (i / 2) node) k = if k = i / 2 then some node else if k = i then some p else at? h k := by
          intro k
          rw [at?_put _ _ _ _ (by omega) (by rw [put_length]; omega), at?_put _ _ _ _ hi hl]
        have hput0 : ∀ k, at? (put h i node) k = if k = i then some node else at? h k := fun k => at?_put _ _ _ _ hi hl
        obtain ⟨r, h1, h2, h3⟩ := ih (put h i p) (i / 2) (by omega) (by omega) (by rw [put_length]; omega)
          (by
            intro k a b hk hne ha hb
            rw [hput] at ha hb
            rw [if_neg hne] at ha
            by_cases hki : k = i
            · subst hki
              rw [if_pos rfl] at ha
              rw [if_pos rfl] at hb
              injection ha with ha; injection hb with hb
              subst ha; subst hb
              exact hlt.asymm _ _ hc
            · rw [if_neg hki] at ha
              by_cases hkp : k / 2 = i
              · rw [if_neg (by omega), if_pos hkp] at hb
                injection hb with hb; subst hb
                exact hskip k a p (by omega) hkp (by rw [hput0, if_neg hki]; exact ha)
                  (by rw [hput0, if_neg (by omega)]; exact hat)
              · by_cases hkj : k / 2 = i / 2
                · rw [if_pos hkj] at hb
                  injection hb with hb; subst hb
                  have := hup k a p hk hki (by rw [hput0, if_neg hki]; exact ha) (by rw [hput0, if_neg (by omega), hkj]; exact hat)
                  exact hlt.negTrans a p node this (hlt.asymm _ _ hc)
                · rw [if_neg hkj, if_neg hkp] at hb
                  exact hup k a b hk hki (by rw [hput0, if_neg hki]; exact ha) (by rw [hput0, if_neg hkp]; exact hb))
          (by
            intro k a b hx hk ha hb
            rw [hput] at ha hb
            rw [if_neg (by omega)] at ha
            rw [if_neg (by omega), if_neg (by omega)] at hb
            by_cases hki : k = i
            · rw [if_pos hki] at ha
              injection ha with ha; subst ha
              exact hup (i / 2) _ b (by omega) (by omega) (by rw [hput0, if_neg (by omega)]; exact hat)
                (by rw [hput0, if_neg (by omega)]; exact hb)
            · rw [if_neg hki] at ha
              have e1 := hup k a p (by omega) hki (by rw [hput0, if_neg hki]; exact ha) (by rw [hput0, if_neg (by omega), hk]; exact hat)
              have e2 := hup (i / 2) p b (by omega) (by omega) (by rw [hput0, if_neg (by omega)]; exact hat)
                (by rw [hput0, if_neg (by omega)]; exact hb)
              exact hlt.negTrans _ _ _ e1 e2)
        refine ⟨r, h1, h2, h3.trans ?_⟩
        exact put_swap_perm h i (i / 2) p node hi hl (by omega) (by omega) hij hat
      · rw [if_neg hc]
        refine ⟨_, rfl, ?_, List.Perm.refl _⟩
        intro k a b hk ha hb
        by_cases hki : k = i
        · subst hki
          rw [at?_put _ _ _ _ hi hl, if_pos rfl] at ha
          rw [at?_put _ _ _ _ hi hl, if_neg (by omega), hat] at hb
          injection ha with ha; injection hb with hb; subst ha; subst hb
          simpa using hc
        · exact hup k a b hk hki ha hb
    · rw [if_neg hj]
      refine ⟨_, rfl, ?_, List.Perm.refl _⟩
      intro k a b hk ha hb
      exact hup k a b hk (by omega) ha hb

theorem up_spec {lt : α → α → Bool} (hlt : StrictWeak lt) (h : List α) (e : α) (hh : IsHeap lt h) :
    ∃ r, up lt (h ++ [e]) = .ok r ∧ IsHeap lt r ∧ r.Perm (h ++ [e]) := by
  unfold up
  have hlen : (h ++ [e]).length = h.length + 1 := by simp
  have hs : slot (h ++ [e]) (h ++ [e]).length = .ok e := by rw [hlen]; simp [slot, Res.ofOption]
  rw [hs, Res.ok_bind]
  have hput : put (h ++ [e]) (h ++ [e]).length e = h ++ [e] := by
    rw [hlen]; simp [put]
  have hat : ∀ k, k ≤ h.length → at? (h ++ [e]) k = at? h k := by
    intro k hk
    unfold at?
    by_cases hk0 : k = 0
    · simp [hk0]
    · simp only [hk0, if_false]; rw [List.getElem?_append_left (by omega)]
  have := upLoop_spec hlt e ((h ++ [e]).length + 1) (h ++ [e]) (h ++ [e]).length (by omega) (by omega) (by omega)
    (by
      rw [hput]
      intro k a b hk hne ha hb
      have := at?_le ha
      rw [hat _ (by omega)] at ha hb
      exact hh k a b hk ha hb)
    (by
      rw [hput]
      intro k a b hx hk ha hb
      have := at?_le ha
      omega)
  rw [hput] at this
  exact this

theorem childOf_spec (lt : α → α → Bool) (hlt : StrictWeak lt) (h : List α) (i : Nat) (hi : 1 ≤ i) :
    ∃ j, childOf lt h i = .ok j ∧ (j = 2 * i ∨ j = 2 * i + 1) ∧
      (h.length < j → h.length < 2 * i) ∧
      (∀ k a c, k / 2 = i → at? h k = some a → at? h j = some c → lt a c = false) := by
  unfold childOf
  by_cases h1 : 2 * i + 1 ≤ h.length
  · rw [if_pos h1]
    obtain ⟨x, e1, e2, _⟩ := slot_eq h (2 * i + 1) (by omega) h1
    obtain ⟨y, e3, e4, _⟩ := slot_eq h (2 * i) (by omega) (by omega)
    rw [e1, Res.ok_bind, e3, Res.ok_bind]
    refine ⟨_, rfl, ?_, ?_, ?_⟩
    · by_cases hl : lt x y = true <;> simp [hl]
    · intro hh; by_cases hl : lt x y = true <;> simp [hl] at hh <;> omega
    · intro k a c hk ha hc
      have hk2 : k = 2 * i ∨ k = 2 * i + 1 := by omega
      by_cases hl : lt x y = true
      · rw [if_pos hl, e2] at hc
        injection hc with hc; subst hc
        rcases hk2 with hk2 | hk2
        · rw [hk2, e4] at ha; injection ha with ha; subst ha; exact hlt.asymm _ _ hl
        · rw [hk2, e2] at ha; injection ha with ha; subst ha; exact hlt.irrefl _
      · rw [if_neg hl, e4] at hc
        injection hc with hc; subst hc
        rcases hk2 with hk2 | hk2
        · rw [hk2, e4] at ha; injection ha with ha; subst ha; exact hlt.irrefl _
        · rw [hk2, e2] at ha; injection ha with ha; subst ha; simpa using hl
  · rw [if_neg h1]
    refine ⟨_, rfl, Or.inl rfl, fun h => h, ?_⟩
    intro k a c hk ha hc
    have := at?_le ha
    have hk2 : k = 2 * i := by omega
    rw [hk2, hc] at ha; injection ha with ha; subst ha; exact hlt.irrefl _

theorem downLoop_spec {lt : α → α → Bool} (hlt : StrictWeak lt) (node : α) :
    ∀ (fuel : Nat) (h : List α) (i : Nat), h.length + 1 ≤ fuel + i → 1 ≤ fuel → 1 ≤ i → i ≤ h.length →
      HeapDown lt (put h i node) i → Skip lt (put h i node) i →
      ∃ r, downLoop lt node fuel h i = .ok r ∧ IsHeap lt r ∧ r.Perm (put h i node) := by
  intro fuel
  induction fuel with
  | zero => intro h i _ hf; omega
  | succ n ih =>
    intro h i hf _ hi hl hdn hskip
    unfold downLoop
    obtain ⟨j, hj, hjc, hjl, hmin⟩ := childOf_spec lt hlt h i hi
    rw [hj, Res.ok_bind]
    have hput0 : ∀ k, at? (put h i node) k = if k = i then some node else at? h k := fun k => at?_put _ _ _ _ hi hl
    by_cases hle : j ≤ h.length
    · rw [if_pos hle]
      obtain ⟨c, hs, hat, _⟩ := slot_eq h j (by omega) hle
      rw [hs, Res.ok_bind]
      by_cases hc : lt c node = true
      · rw [if_pos hc]
        have hput : ∀ k, at? (put (put h i c) j node) k = if k = j then some node else if k = i then some c else at? h k := by
          intro k
          rw [at?_put _ _ _ _ (by omega) (by rw [put_length]; omega), at?_put _ _ _ _ hi hl]
        obtain ⟨r, h1, h2, h3⟩ := ih (put h i c) j (by rw [put_length]; omega) (by omega) (by omega) (by rw [put_length]; omega)
          (by
            intro k a b hk hne ha hb
            rw [hput] at ha hb
            rw [if_neg hne] at hb
            by_cases hkj : k = j
            · rw [if_pos hkj] at ha
              injection ha with ha; subst ha
              rw [if_pos (by omega)] at hb
              injection hb with hb; subst hb
              exact hlt.asymm _ _ hc
            · rw [if_neg hkj] at ha
              by_cases hki : k = i
              · subst hki
                rw [if_pos rfl] at ha
                rw [if_neg (by omega)] at hb
                injection ha with ha; subst ha
                exact hskip j _ b (by omega) (by omega) (by rw [hput0, if_neg (by omega)]; exact hat)
                  (by rw [hput0, if_neg (by omega)]; exact hb)
              · rw [if_neg hki] at ha
                by_cases hkp : k / 2 = i
                · rw [if_pos hkp] at hb
                  injection hb with hb; subst hb
                  exact hmin k a _ hkp ha hat
                · rw [if_neg hkp] at hb
                  exact hdn k a b hk hkp (by rw [hput0, if_neg hki]; exact ha) (by rw [hput0, if_neg hkp]; exact hb))
          (by
            intro k a b hx hk ha hb
            rw [hput] at ha hb
            rw [if_neg (by omega), if_neg (by omega)] at ha
            rw [if_neg (by omega), if_pos (by omega)] at hb
            injection hb with hb; subst hb
            exact hdn k a _ (by omega) (by omega) (by rw [hput0, if_neg (by omega)]; exact ha)
              (by rw [hput0, if_neg (by omega), hk]; exact hat))
        refine ⟨r, h1, h2, h3.trans ?_⟩
        exact put_swap_perm h i j c node hi hl (by omega) hle (by omega) hat
      · rw [if_neg hc]
        refine ⟨_, rfl, ?_, List.Perm.refl _⟩
        intro k a b hk ha hb
        by_cases hki : k / 2 = i
        · rw [hput0, if_neg (by omega)] at ha
          rw [hput0, if_pos hki] at hb
          injection hb with hb; subst hb
          exact hlt.negTrans a c _ (hmin k a c hki ha hat) (by simpa using hc)
        · exact hdn k a b hk hki ha hb
    · rw [if_neg hle]
      refine ⟨_, rfl, ?_, List.Perm.refl _⟩
      intro k a b hk ha hb
      have := at?_le ha
      rw [put_length] at this
      exact hdn k a b hk (by omega) ha hb

/-- Sifting down after the top has been replaced. -/
theorem down_spec {lt : α → α → Bool} (hlt : StrictWeak lt) (h : List α)
    (hh : ∀ k a b, 4 ≤ k → at? h k = some a → at? h (k / 2) = some b → lt a b = false) :
    ∃ r, down lt h = .ok r ∧ IsHeap lt r ∧ r.Perm h := by
  unfold down
  cases h with
  | nil => exact ⟨[], rfl, by intro k a b _ ha; simp [at?] at ha, List.Perm.refl _⟩
  | cons node rest =>
    simp only []
    have hput : put (node :: rest) 1 node = node :: rest := rfl
    have := downLoop_spec hlt node ((node :: rest).length + 1) (node :: rest) 1 (by omega) (by omega) (by omega) (by simp)
      (by rw [hput]; intro k a b hk hne; exact hh k a b (by omega))
      (by rw [hput]; intro k a b hx; omega)
    rwa [hput] at this

theorem heap_top_min {lt : α → α → Bool} (hlt : StrictWeak lt) {h : List α} (hh : IsHeap lt h) (t : α) (ht : h.head? = some t) :
    ∀ x ∈ h, lt x t = false := by
  have key : ∀ k a, 1 ≤ k → at? h k = some a → lt a t = false := by
    intro k
    induction k using Nat.strongRecOn with
    | ind k ih =>
      intro a hk ha
      by_cases h1 : k = 1
      · subst h1
        have : at? h 1 = h.head? := by simp [at?]; cases h <;> rfl
        rw [this, ht] at ha
        injection ha with ha; subst ha; exact hlt.irrefl _
      · have hb := at?_le ha
        have hk2 : k / 2 ≤ h.length := by omega
        obtain ⟨b, _, e2, _⟩ := slot_eq (α := α) h (k / 2) (by omega) hk2
        exact hlt.negTrans _ _ _ (hh k a b (by omega) ha e2) (ih (k / 2) (by omega) b (by omega) e2)
  intro x hx
  obtain ⟨n, hn, rfl⟩ := List.mem_iff_getElem.mp hx
  exact key (n + 1) _ (by omega) (by simp [at?])

/-- Queue invariant. -/
structure Inv (lt : α → α → Bool) (q : PQ α) : Prop where
  heap : IsHeap lt q.heap
  mem : q.heap.length < q.memCapa

theorem isHeap_nil (lt : α → α → Bool) : IsHeap lt ([] : List α) := by
  intro k a b _ ha; simp [at?] at ha

theorem inv_new (lt : α → α → Bool) (capa : Nat) : Inv lt (new capa : PQ α) :=
  ⟨isHeap_nil lt, by simp [new]⟩

theorem push_spec {lt : α → α → Bool} (hlt : StrictWeak lt) (q : PQ α) (e : α) (hq : Inv lt q) :
    ∃ q', push lt q e = .ok q' ∧ Inv lt q' ∧ q'.capa = q.capa ∧ q'.heap.Perm (e :: q.heap) := by
  unfold push
  have hm := hq.mem
  obtain ⟨r, h1, h2, h3⟩ := up_spec hlt q.heap e hq.heap
  have hlen : r.length = q.heap.length + 1 := by rw [h3.length_eq]; simp
  simp only []
  rw [if_neg (by split <;> omega), h1, Res.ok_bind]
  refine ⟨_, rfl, ⟨h2, ?_⟩, rfl, ?_⟩
  · simp only [hlen]; split <;> omega
  · exact h3.trans (List.perm_append_comm (l₁ := q.heap) (l₂ := [e]))

theorem insert_spec {lt : α → α → Bool} (hlt : StrictWeak lt) (q : PQ α) (e : α) (hq : Inv lt q) :
    ∃ q' i o, insert lt q e = .ok (q', i, o) ∧ Inv lt q' ∧ q'.capa = q.capa ∧
      ((q.heap.length < q.capa ∧ i = .added ∧ o = none ∧ q'.heap.Perm (e :: q.heap)) ∨
       (q.capa ≤ q.heap.length ∧ ∃ d, o = some d ∧ (d :: q'.heap).Perm (e :: q.heap) ∧ q'.heap.length = q.heap.length ∧
          (∀ x ∈ q'.heap, lt x d = false) ∧ (i = .dropped ↔ q' = q) ∧ i ≠ .added)) := by
  unfold insert
  by_cases hc : q.heap.length < q.capa
  · rw [if_pos hc]
    obtain ⟨q', h1, h2, h3, h4⟩ := push_spec hlt q e hq
    rw [h1, Res.ok_bind]
    exact ⟨q', _, _, rfl, h2, h3, Or.inl ⟨hc, rfl, rfl, h4⟩⟩
  · rw [if_neg hc]
    cases hh : q.heap with
    | nil =>
      simp only []
      refine ⟨q, _, _, rfl, hq, rfl, Or.inr ⟨by simp [hh] at hc; simp; omega, e, rfl, ?_, ?_, ?_, by simp, by simp⟩⟩
      · rw [hh]
      · rw [hh]
      · rw [hh]; simp
    | cons t rest =>
      have hheap := hq.heap
      have hmin := heap_top_min hlt hq.heap t (by rw [hh]; rfl)
      simp only []
      by_cases hlte : lt t e = true
      · rw [if_pos hlte]
        obtain ⟨r, h1, h2, h3⟩ := down_spec hlt (e :: rest) (by
          intro k a b hk ha hb
          apply hheap k a b (by omega)
          · rw [hh]; unfold at? at ha ⊢; rw [if_neg (by omega)] at ha ⊢
            rw [show k - 1 = (k - 2) + 1 by omega] at ha ⊢; exact ha
          · rw [hh]; unfold at? at hb ⊢; rw [if_neg (by omega)] at hb ⊢
            rw [show k / 2 - 1 = (k / 2 - 2) + 1 by omega] at hb ⊢; exact hb)
        rw [h1, Res.ok_bind]
        have hl : r.length = rest.length + 1 := by rw [h3.length_eq]; simp
        refine ⟨_, _, _, rfl, ⟨h2, ?_⟩, rfl, Or.inr ⟨by rw [hh] at hc; omega, t, rfl, ?_, ?_, ?_, ?_, by simp⟩⟩
        · have := hq.mem; rw [hh] at this; simp only [hl]; simpa using this
        · exact (h3.cons t).trans (List.Perm.swap _ _ _)
        · simp [hl]
        · intro x hx
          have hx2 : x ∈ e :: rest := h3.mem_iff.mp hx
          rcases List.mem_cons.mp hx2 with rfl | hx3
          · exact hlt.asymm _ _ hlte
          · exact hmin x (by rw [hh]; exact List.mem_cons_of_mem _ hx3)
        · constructor
          · intro h; simp at h
          · intro h
            exfalso
            have h5 : r = t :: rest := by rw [← hh, ← h]
            have h6 : (e :: rest).Perm (t :: rest) := by rw [← h5]; exact h3.symm
            have h7 : e ∈ t :: rest := h6.mem_iff.mp (List.mem_cons_self ..)
            have h8 : r.head? = some t := by rw [h5]; rfl
            -- `lt t e` with equal multisets: the number of copies of elements above `t` differs
            have h9 := h6.countP_eq (fun x => lt t x)
            rw [List.countP_cons_of_pos (by simpa using hlte), List.countP_cons_of_neg (by simp [hlt.irrefl t])] at h9
            omega
      · rw [if_neg hlte]
        refine ⟨q, _, _, rfl, hq, rfl, Or.inr ⟨by rw [hh] at hc; omega, e, rfl, ?_, by rw [hh], ?_, by simp, by simp⟩⟩
        · rw [hh]
        · intro x hx
          exact hlt.negTrans x t e (hmin x hx) (by simpa using hlte)

theorem rotate_perm (l : List α) (hl : l ≠ []) : (l.getLast hl :: l).dropLast.Perm l := by
  rw [List.dropLast_cons_of_ne_nil hl]
  have h1 : l.dropLast ++ [l.getLast hl] = l := List.dropLast_concat_getLast hl
  have h2 : (l.getLast hl :: l.dropLast).Perm (l.dropLast ++ [l.getLast hl]) :=
    (List.perm_append_comm (l₁ := [l.getLast hl]) (l₂ := l.dropLast))
  rw [h1] at h2; exact h2

theorem pop_none {lt : α → α → Bool} (q : PQ α) (h : q.heap = []) : pop lt q = .ok (none, q) := by
  unfold pop
  split
  · rfl
  · rename_i hh; rw [h] at hh; simp at hh

theorem pop_spec {lt : α → α → Bool} (hlt : StrictWeak lt) (q : PQ α) (hq : Inv lt q) (hne : q.heap ≠ []) :
    ∃ t q', pop lt q = .ok (some t, q') ∧ Inv lt q' ∧ q'.capa = q.capa ∧ (t :: q'.heap).Perm q.heap ∧
      top q = some t ∧ ∀ x ∈ q.heap, lt x t = false := by
  unfold pop
  split
  · rename_i h; exact absurd h hne
  · rename_i t rest hh
    have hmin := heap_top_min hlt hq.heap t (by rw [hh]; rfl)
    have hheap := hq.heap
    rw [hh] at hheap
    simp only []
    have hperm : (put (t :: rest) 1 ((t :: rest).getLast (by simp))).dropLast.Perm rest := by
      unfold put
      simp only [Nat.sub_self, List.set_cons_zero]
      cases rest with
      | nil => simp
      | cons y ys =>
        rw [List.getLast_cons (by simp)]
        exact rotate_perm _ _
    have hat : ∀ k a, 2 ≤ k → at? ((put (t :: rest) 1 ((t :: rest).getLast (by simp))).dropLast) k = some a → at? (t :: rest) k = some a := by
      intro k a hk ha
      unfold at? at ha ⊢
      rw [if_neg (by omega)] at ha ⊢
      rw [List.getElem?_dropLast] at ha
      split at ha
      · unfold put at ha
        rwa [List.getElem?_set_ne (by omega)] at ha
      · simp at ha
    obtain ⟨r, h1, h2, h3⟩ := down_spec hlt ((put (t :: rest) 1 ((t :: rest).getLast (by simp))).dropLast) (by
      intro k a b hk ha hb
      exact hheap k a b (by omega) (hat k a (by omega) ha) (hat _ b (by omega) hb))
    rw [h1, Res.ok_bind]
    have hp := h3.trans hperm
    refine ⟨t, _, rfl, ⟨h2, ?_⟩, rfl, ?_, by unfold top; rw [hh]; rfl, hmin⟩
    · have := hq.mem; rw [hh] at this; simp only [hp.length_eq]; simp at this; omega
    · rw [hh]; exact hp.cons t

end Ferret.PQ
