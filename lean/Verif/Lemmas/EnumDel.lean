import Verif.Model.EnumDel

/-! Enumerations while documents are deleted (C99). -/

namespace Ferret.EnumDel
open Ferret Ferret.Spec

local notation "Heap" => List (Option (List Nat))

/-- The vector of a segment holds its deleted documents; there is one when there are any. -/
def DelOk (heap : Heap) (dead : List Nat) (b : Nat) (s : Seg) : Prop :=
  match s.del with
  | none => ∀ o, o < s.seg.size → b + o ∉ dead
  | some r => ∃ l, heap[r]? = some (some l) ∧ (∀ o, o < s.seg.size → (o ∈ l ↔ b + o ∈ dead)) ∧ ∃ o, o < s.seg.size ∧ o ∈ l

def SegsRel (heap : Heap) (dead : List Nat) : Nat → List Seg → Prop
  | _, [] => True
  | b, s :: r => DelOk heap dead b s ∧ SegsRel heap dead (b + s.seg.size) r

/-- What an enumeration has yet to give. -/
def SubsRel : Nat → List Seg → List Sub → List (Nat × Bool) → Prop
  | _, [], [], items => items = []
  | b, s :: r, u :: us, items => u.base = b ∧ u.size = s.seg.size ∧ (∀ d ∈ u.rest, d < u.size) ∧ (u.rest = [] ∨ u.del = none ∨ u.del = s.del) ∧
      ∃ items', items = u.rest.map (fun o => (b + o, u.del.isSome)) ++ items' ∧ SubsRel (b + s.seg.size) r us items'
  | _, _, _, _ => False

/-- The pointers to vectors. -/
def ptrs (segs : List Seg) : List Nat := segs.filterMap (·.del)

structure Core (segs : List Seg) (heap : Heap) (dead : List Nat) (b : Nat) : Prop where
  rel : SegsRel heap dead b segs
  dist : (ptrs segs).Nodup
  lt : ∀ r ∈ ptrs segs, r < heap.length

theorem DelOk.frame {heap heap' : Heap} {dead dead' : List Nat} {b : Nat} {s : Seg} (h : DelOk heap dead b s) (hh : ∀ r, s.del = some r → heap'[r]? = heap[r]?)
    (hd : ∀ o, o < s.seg.size → (b + o ∈ dead' ↔ b + o ∈ dead)) : DelOk heap' dead' b s := by
  unfold DelOk at *
  cases hs : s.del with
  | none =>
    rw [hs] at h
    intro o ho
    rw [hd o ho]
    exact h o ho
  | some r =>
    rw [hs] at h
    obtain ⟨l, h1, h2, h3⟩ := h
    refine ⟨l, by rw [hh r hs]; exact h1, fun o ho => ?_, h3⟩
    rw [hd o ho]
    exact h2 o ho

theorem SegsRel.frame {heap heap' : Heap} {dead dead' : List Nat} : ∀ {segs : List Seg} {b : Nat}, SegsRel heap dead b segs →
    (∀ r ∈ ptrs segs, heap'[r]? = heap[r]?) → (∀ x, b ≤ x → (x ∈ dead' ↔ x ∈ dead)) → SegsRel heap' dead' b segs
  | [], _, _, _, _ => trivial
  | s :: r, b, h, hh, hd => ⟨h.1.frame (fun x hx => hh x (by simp [ptrs, hx])) (fun o _ => hd _ (by omega)),
      h.2.frame (fun x hx => hh x (by
        unfold ptrs at hx ⊢
        rw [List.filterMap_cons]
        cases s.del <;> simp [hx])) (fun x hx => hd x (by omega))⟩

theorem dead_iff {heap : Heap} {dead : List Nat} {b : Nat} {s : Seg} (h : DelOk heap dead b s) :
    dead.any (fun x => decide (b ≤ x) && decide (x < b + s.seg.size)) = s.del.isSome := by
  unfold DelOk at h
  rw [Bool.eq_iff_iff, List.any_eq_true]
  cases hs : s.del with
  | none =>
    rw [hs] at h
    simp only [Option.isSome_none, Bool.false_eq_true, iff_false, not_exists, not_and, Bool.and_eq_true, decide_eq_true_eq]
    intro x hx h1 h2
    exact h (x - b) (by omega) (by rw [show b + (x - b) = x by omega]; exact hx)
  | some r =>
    rw [hs] at h
    obtain ⟨l, _, h2, o, h3, h4⟩ := h
    simp only [Option.isSome_some, iff_true]
    exact ⟨b + o, (h2 o h3).1 h4, by simp; omega⟩

/-! ### The next document -/

theorem stdeNext_spec {heap : Heap} {dead : List Nat} {b : Nat} {del : Option Nat} : ∀ (rest : List Nat),
    (∀ r, del = some r → ∀ d ∈ rest, marked heap r d = .ok (decide (b + d ∈ dead))) →
    stdeNext heap del rest = .ok (match rest.dropWhile (fun d => del.isSome && decide (b + d ∈ dead)) with
      | [] => (none, [])
      | d :: r => (some d, r)) := by
  intro rest
  induction rest with
  | nil => intro _; rfl
  | cons d rest ih =>
    intro h
    cases del with
    | none => simp [stdeNext]
    | some r =>
      simp only [stdeNext, h r rfl d List.mem_cons_self, Res.ok_bind]
      by_cases hd : b + d ∈ dead
      · rw [if_pos (by simpa using hd), ih (fun r hr e he => h r hr e (List.mem_cons_of_mem _ he))]
        rw [List.dropWhile_cons_of_pos (by simpa using hd)]
      · rw [if_neg (by simpa using hd)]
        rw [List.dropWhile_cons_of_neg (by simpa using hd)]

theorem marked_ok {heap : Heap} {dead : List Nat} {b : Nat} {s : Seg} (h : DelOk heap dead b s) {u : Sub} (hsz : u.size = s.seg.size) (hlt : ∀ d ∈ u.rest, d < u.size)
    (hd : u.rest = [] ∨ u.del = none ∨ u.del = s.del) : ∀ r, u.del = some r → ∀ d ∈ u.rest, marked heap r d = .ok (decide (b + d ∈ dead)) := by
  intro r hr d hm
  rcases hd with hd | hd | hd
  · rw [hd] at hm; cases hm
  · rw [hd] at hr; cases hr
  · rw [hd] at hr
    unfold DelOk at h
    rw [hr] at h
    obtain ⟨l, h1, h2, _⟩ := h
    simp only [marked, h1, h2 d (by rw [← hsz]; exact hlt d hm)]

/-- How giving the next document goes through two parts. -/
theorem giveNext_append (dead : List Nat) (b : Nat) (f : Bool) (rest : List Nat) (items : List (Nat × Bool)) :
    giveNext dead (rest.map (fun o => (b + o, f)) ++ items) = match rest.dropWhile (fun d => f && decide (b + d ∈ dead)) with
      | [] => giveNext dead items
      | d :: r => (some (b + d), r.map (fun o => (b + o, f)) ++ items) := by
  induction rest with
  | nil => rfl
  | cons d rest ih =>
    by_cases hd : (f && decide (b + d ∈ dead)) = true
    · rw [List.dropWhile_cons_of_pos (p := fun d => f && decide (b + d ∈ dead)) hd, ← ih]
      unfold giveNext
      rw [List.map_cons, List.cons_append, List.dropWhile_cons_of_pos (by exact hd)]
    · rw [List.dropWhile_cons_of_neg (p := fun d => f && decide (b + d ∈ dead)) hd]
      unfold giveNext
      rw [List.map_cons, List.cons_append, List.dropWhile_cons_of_neg (by exact hd)]

theorem dropWhile_sub {α : Type} (p : α → Bool) {l r : List α} {x : α} (h : l.dropWhile p = x :: r) : x ∈ l ∧ ∀ y ∈ r, y ∈ l := by
  have hs : ∀ y ∈ l.dropWhile p, y ∈ l := fun y hy => (List.dropWhile_sublist p).subset hy
  rw [h] at hs
  exact ⟨hs x List.mem_cons_self, fun y hy => hs y (List.mem_cons_of_mem _ hy)⟩

theorem subsNext_spec {heap : Heap} {dead : List Nat} : ∀ {segs : List Seg} {b : Nat} {us : List Sub} {items : List (Nat × Bool)}, SegsRel heap dead b segs →
    SubsRel b segs us items → ∃ us', subsNext heap us = .ok ((giveNext dead items).1, us') ∧ SubsRel b segs us' (giveNext dead items).2 := by
  intro segs
  induction segs with
  | nil =>
    intro b us items _ hu
    cases us with
    | nil => cases hu; exact ⟨[], rfl, rfl⟩
    | cons u us => exact hu.elim
  | cons s r ih =>
    intro b us items hs hu
    cases us with
    | nil => exact hu.elim
    | cons u us =>
      obtain ⟨h1, h2, h3, h4, items', rfl, h5⟩ := hu
      obtain ⟨us', k1, k2⟩ := ih hs.2 h5
      have hm := stdeNext_spec (heap := heap) (dead := dead) (b := b) (del := u.del) u.rest (marked_ok hs.1 h2 h3 h4)
      rw [giveNext_append]
      simp only [subsNext, hm, Res.ok_bind]
      cases hw : u.rest.dropWhile (fun d => u.del.isSome && decide (b + d ∈ dead)) with
      | nil =>
        simp only [k1, Res.ok_bind]
        exact ⟨_, rfl, h1, h2, fun d hd => (by cases hd), .inl rfl, _, rfl, k2⟩
      | cons d rest =>
        obtain ⟨m1, m2⟩ := dropWhile_sub _ hw
        simp only [h1]
        exact ⟨_, rfl, rfl, h2, fun d hd => h3 d (m2 d hd), h4.imp (fun h => (by rw [h] at m1; cases m1)) id, _, rfl, h5⟩

/-! ### Skipping -/

theorem items_ge : ∀ {segs : List Seg} {b : Nat} {us : List Sub} {items : List (Nat × Bool)}, SubsRel b segs us items → ∀ x ∈ items, b ≤ x.1 ∧ x.1 < b + maxDoc segs := by
  intro segs
  induction segs with
  | nil =>
    intro b us items hu
    cases us with
    | nil => cases hu; intro x hx; cases hx
    | cons u us => exact hu.elim
  | cons s r ih =>
    intro b us items hu
    cases us with
    | nil => exact hu.elim
    | cons u us =>
      obtain ⟨h1, h2, h3, h4, items', rfl, h5⟩ := hu
      intro x hx
      have hmx : maxDoc (s :: r) = s.seg.size + maxDoc r := by simp [maxDoc]
      rcases List.mem_append.1 hx with hx | hx
      · obtain ⟨o, ho, rfl⟩ := List.mem_map.1 hx
        have := h3 o ho
        exact ⟨Nat.le_add_right _ _, by show b + o < _; omega⟩
      · have := ih h5 x hx
        omega

theorem dropWhile_pass {α : Type} (p : α → Bool) : ∀ (l r : List α), (∀ x ∈ l, p x = true) → (l ++ r).dropWhile p = r.dropWhile p
  | [], _, _ => rfl
  | x :: l, r, h => by
    rw [List.cons_append, List.dropWhile_cons_of_pos (h x List.mem_cons_self)]
    exact dropWhile_pass p l r (fun y hy => h y (List.mem_cons_of_mem _ hy))

theorem dropWhile_none {α : Type} (p : α → Bool) : ∀ (l : List α), (∀ x ∈ l, p x = false) → l.dropWhile p = l
  | [], _ => rfl
  | x :: l, h => List.dropWhile_cons_of_neg (by rw [h x List.mem_cons_self]; simp)

theorem dropWhile_first {α : Type} (p : α → Bool) : ∀ (l r : List α), (∀ x ∈ r, p x = false) → (l ++ r).dropWhile p = l.dropWhile p ++ r
  | [], r, h => dropWhile_none p r h
  | x :: l, r, h => by
    rw [List.cons_append]
    by_cases hx : p x = true
    · rw [List.dropWhile_cons_of_pos hx, List.dropWhile_cons_of_pos hx]
      exact dropWhile_first p l r h
    · rw [List.dropWhile_cons_of_neg hx, List.dropWhile_cons_of_neg hx, List.cons_append]

theorem dropWhile_map {α β : Type} (f : α → β) (p : β → Bool) : ∀ (l : List α), (l.map f).dropWhile p = (l.dropWhile (fun x => p (f x))).map f
  | [] => rfl
  | x :: l => by
    rw [List.map_cons]
    by_cases hx : p (f x) = true
    · rw [List.dropWhile_cons_of_pos hx, List.dropWhile_cons_of_pos (p := fun x => p (f x)) hx]
      exact dropWhile_map f p l
    · rw [List.dropWhile_cons_of_neg hx, List.dropWhile_cons_of_neg (p := fun x => p (f x)) hx, List.map_cons]

theorem subsSkipTo_spec {heap : Heap} {dead : List Nat} (target : Nat) : ∀ {segs : List Seg} {b : Nat} {us : List Sub} {items : List (Nat × Bool)}, SegsRel heap dead b segs →
    SubsRel b segs us items → ∃ us', subsSkipTo heap target us = .ok ((giveNext dead (items.dropWhile (fun x => decide (x.1 < target)))).1, us') ∧
      SubsRel b segs us' (giveNext dead (items.dropWhile (fun x => decide (x.1 < target)))).2 := by
  intro segs
  induction segs with
  | nil =>
    intro b us items _ hu
    cases us with
    | nil => cases hu; exact ⟨[], rfl, rfl⟩
    | cons u us => exact hu.elim
  | cons s r ih =>
    intro b us items hs hu
    cases us with
    | nil => exact hu.elim
    | cons u us =>
      obtain ⟨h1, h2, h3, h4, items', rfl, h5⟩ := hu
      obtain ⟨us', k1, k2⟩ := ih hs.2 h5
      simp only [subsSkipTo]
      by_cases ht : target < u.base + u.size
      · rw [if_pos ht]
        have hge : ∀ x ∈ items', decide (x.1 < target) = false := by
          intro x hx
          have := (items_ge h5 x hx).1
          rw [decide_eq_false_iff_not]
          omega
        rw [dropWhile_first _ _ _ hge, dropWhile_map]
        rw [dropWhile_none _ _ hge] at k1 k2
        have hsub : ∀ d ∈ u.rest.dropWhile (fun o => decide (b + o < target)), d ∈ u.rest := fun y hy => (List.dropWhile_sublist _).subset hy
        have hm := stdeNext_spec (heap := heap) (dead := dead) (b := b) (del := u.del) (u.rest.dropWhile (fun o => decide (b + o < target)))
          (fun r hr d hd => marked_ok hs.1 h2 h3 h4 r hr d (hsub d hd))
        rw [giveNext_append]
        simp only [stdeSkipTo, h1, hm, Res.ok_bind]
        cases hw : (u.rest.dropWhile (fun o => decide (b + o < target))).dropWhile (fun d => u.del.isSome && decide (b + d ∈ dead)) with
        | nil =>
          simp only [k1, Res.ok_bind]
          exact ⟨_, rfl, rfl, h2, fun d hd => (by cases hd), .inl rfl, _, rfl, k2⟩
        | cons d rest =>
          obtain ⟨m1, m2⟩ := dropWhile_sub _ hw
          exact ⟨_, rfl, rfl, h2, fun d hd => h3 d (hsub d (m2 d hd)), h4.imp (fun h => (by rw [h] at m1; cases m1)) id, _, rfl, h5⟩
      · rw [if_neg ht]
        have hlt : ∀ x ∈ u.rest.map (fun o => (b + o, u.del.isSome)), decide (x.1 < target) = true := by
          intro x hx
          obtain ⟨o, ho, rfl⟩ := List.mem_map.1 hx
          have := h3 o ho
          rw [decide_eq_true_eq]
          show b + o < target
          omega
        rw [dropWhile_pass _ _ _ hlt]
        simp only [Res.ok_bind, k1]
        exact ⟨_, rfl, h1, h2, fun d hd => (by cases hd), .inl rfl, _, rfl, k2⟩

/-! ### Opening -/

theorem openSubs_spec {heap : Heap} {dead : List Nat} (t : Nat) : ∀ {segs : List Seg} {b : Nat}, (∀ s ∈ segs, ∀ o ∈ s.seg.docs t, o < s.seg.size) → SegsRel heap dead b segs →
    SubsRel b segs (openSubs t b segs) (openItems dead t b (segs.map (·.seg)))
  | [], _, _, _ => rfl
  | s :: r, b, hw, h => ⟨rfl, rfl, hw s List.mem_cons_self, .inr (.inr rfl), _, (by simp only [List.map_cons, openItems, dead_iff h.1]),
      openSubs_spec t (fun x hx => hw x (List.mem_cons_of_mem _ hx)) h.2⟩

theorem openItems_docs (dead : List Nat) (t : Nat) : ∀ (segs : List EnumSeg) (b : Nat), (openItems dead t b segs).map (·.1) = docsWith t b segs
  | [], _ => rfl
  | s :: r, b => by
    rw [openItems, docsWith, List.map_append, openItems_docs dead t r, List.map_map]
    rfl

theorem openItems_unseen (dead : List Nat) (t : Nat) : ∀ (segs : List EnumSeg) (b : Nat), (∀ s ∈ segs, ∀ o ∈ s.docs t, o < s.size) →
    ∀ x ∈ openItems dead t b segs, x.2 = false → x.1 ∉ dead
  | [], _, _, x, hx, _ => by cases hx
  | s :: r, b, hw, x, hx, hf => by
    rw [openItems] at hx
    rcases List.mem_append.1 hx with hx | hx
    · obtain ⟨o, ho, rfl⟩ := List.mem_map.1 hx
      intro hd
      have hlt := hw s List.mem_cons_self o ho
      have := List.any_eq_false.1 hf (b + o) hd
      simp only [Bool.and_eq_true, decide_eq_true_eq, not_and] at this
      have h' := this (Nat.le_add_right _ _)
      omega
    · exact openItems_unseen dead t r _ (fun y hy => hw y (List.mem_cons_of_mem _ hy)) x hx hf

theorem giveNext_find (dead : List Nat) : ∀ (items : List (Nat × Bool)), (∀ x ∈ items, x.2 = false → x.1 ∉ dead) →
    (giveNext dead items).1 = (items.map (·.1)).find? (fun d => !decide (d ∈ dead))
  | [], _ => rfl
  | (d, f) :: items, h => by
    by_cases hd : d ∈ dead
    · have hf : f = true := by
        cases f with
        | true => rfl
        | false => exact absurd hd (h (d, false) List.mem_cons_self rfl)
      have ih := giveNext_find dead items (fun x hx => h x (List.mem_cons_of_mem _ hx))
      rw [List.map_cons, List.find?_cons, show (!decide (d ∈ dead)) = false by simp [hd], ← ih]
      unfold giveNext
      rw [List.dropWhile_cons_of_pos (by simp [hf, hd])]
    · rw [List.map_cons, List.find?_cons, show (!decide (d ∈ dead)) = true by simp [hd]]
      unfold giveNext
      rw [List.dropWhile_cons_of_neg (by simp [hd])]

/-! ### Deleting -/

theorem SubsRel.same : ∀ {segs : List Seg} {b : Nat} {us : List Sub} {items : List (Nat × Bool)} {segs' : List Seg}, SubsRel b segs us items →
    segs'.map (·.seg) = segs.map (·.seg) → (∀ (i : Nat) (s s' : Seg), segs[i]? = some s → segs'[i]? = some s' → s.del = none ∨ s'.del = s.del) → SubsRel b segs' us items := by
  intro segs
  induction segs with
  | nil =>
    intro b us items segs' hu hs _
    cases segs' with
    | nil => exact hu
    | cons s r => cases hs
  | cons s r ih =>
    intro b us items segs' hu hs hd
    cases us with
    | nil => exact hu.elim
    | cons u us =>
      cases segs' with
      | nil => cases hs
      | cons s' r' =>
        simp only [List.map_cons, List.cons.injEq] at hs
        obtain ⟨h1, h2, h3, h4, items', rfl, h5⟩ := hu
        refine ⟨h1, by rw [h2, hs.1], h3, ?_, items', rfl, ?_⟩
        · rcases h4 with h4 | h4 | h4
          · exact .inl h4
          · exact .inr (.inl h4)
          · rcases hd 0 s s' rfl rfl with hn | hn
            · exact .inr (.inl (by rw [h4, hn]))
            · exact .inr (.inr (by rw [h4, hn]))
        · rw [hs.1]
          exact ih h5 hs.2 (fun i x y hx hy => hd (i + 1) x y hx hy)

theorem ptrs_cons (s : Seg) (r : List Seg) : ptrs (s :: r) = s.del.toList ++ ptrs r := by
  unfold ptrs
  rw [List.filterMap_cons]
  cases s.del <;> rfl

theorem mrDelete_spec {dead : List Nat} : ∀ {segs : List Seg} {heap : Heap} {b d : Nat}, Core segs heap dead b → d < maxDoc segs →
    ∃ segs' heap', mrDelete heap segs d = .ok (segs', heap') ∧ Core segs' heap' ((b + d) :: dead) b ∧ segs'.map (·.seg) = segs.map (·.seg) ∧
      (∀ (i : Nat) (s s' : Seg), segs[i]? = some s → segs'[i]? = some s' → s.del = none ∨ s'.del = s.del) ∧
      heap.length ≤ heap'.length ∧ (∀ r, r < heap.length → r ∉ ptrs segs → heap'[r]? = heap[r]?) ∧
      (∀ r ∈ ptrs segs', r ∈ ptrs segs ∨ heap.length ≤ r) := by
  intro segs
  induction segs with
  | nil => intro heap b d _ hd; exact absurd hd (by simp [maxDoc])
  | cons s r ih =>
    intro heap b d hc hd
    have hmx : maxDoc (s :: r) = s.seg.size + maxDoc r := by simp [maxDoc]
    have hlt := hc.lt
    have hdist := hc.dist
    rw [ptrs_cons] at hlt hdist
    simp only [mrDelete]
    by_cases h : d < s.seg.size
    · rw [if_pos h]
      cases hs : s.del with
      | none =>
        have e : srDelete heap s d = .ok ({ s with del := some heap.length }, heap ++ [some [d]]) := by simp only [srDelete, hs]
        rw [e]
        rw [hs] at hlt hdist
        simp only [Option.toList_none, List.nil_append] at hlt hdist
        refine ⟨_, _, rfl, ⟨⟨?_, ?_⟩, ?_, ?_⟩, rfl, ?_, by simp, ?_, ?_⟩
        · refine ⟨[d], by simp, ?_, d, h, by simp⟩
          have hdel := hc.rel.1
          unfold DelOk at hdel
          rw [hs] at hdel
          intro o ho
          have hn := hdel o ho
          simp only [List.mem_cons, List.not_mem_nil, or_false]
          constructor
          · intro e; exact .inl (by rw [e])
          · rintro (e | e)
            · omega
            · exact absurd e hn
        · refine hc.rel.2.frame (fun x hx => ?_) (fun x hx => ?_)
          · exact List.getElem?_append_left (hlt x hx)
          · rw [List.mem_cons]
            exact ⟨fun e => e.resolve_left (by show ¬ x = b + d; have : b + s.seg.size ≤ x := hx; omega), .inr⟩
        · rw [ptrs_cons]
          simp only [Option.toList_some, List.singleton_append, List.nodup_cons]
          exact ⟨fun hm => absurd (hlt _ hm) (Nat.lt_irrefl _), hdist⟩
        · rw [ptrs_cons]
          intro x hx
          rw [List.length_append]
          rcases List.mem_append.1 hx with hx | hx
          · have : x = heap.length := by simpa using hx
            simp; omega
          · have := hlt x hx
            simp; omega
        · intro i x y hx hy
          cases i with
          | zero => cases hx; exact .inl hs
          | succ i =>
            rw [List.getElem?_cons_succ] at hx hy
            rw [hx] at hy
            exact .inr (by cases hy; rfl)
        · intro x hx _
          exact List.getElem?_append_left hx
        · intro x hx
          rw [ptrs_cons] at hx ⊢
          rcases List.mem_append.1 hx with hx | hx
          · exact .inr (by have : x = heap.length := by simpa using hx
                           omega)
          · exact .inl (List.mem_append_right _ hx)
      | some q =>
        have hdel := hc.rel.1
        unfold DelOk at hdel
        rw [hs] at hdel
        obtain ⟨l, l1, l2, l3⟩ := hdel
        have e : srDelete heap s d = .ok (s, heap.set q (some (d :: l))) := by simp only [srDelete, hs, l1]
        rw [e]
        rw [hs] at hlt hdist
        simp only [Option.toList_some, List.singleton_append, List.nodup_cons] at hlt hdist
        have hq := hlt q List.mem_cons_self
        refine ⟨_, _, rfl, ⟨⟨?_, ?_⟩, ?_, ?_⟩, rfl, ?_, by simp, ?_, ?_⟩
        · unfold DelOk
          rw [hs]
          refine ⟨d :: l, by simp [hq], ?_, d, h, List.mem_cons_self⟩
          intro o ho
          rw [List.mem_cons, List.mem_cons, l2 o ho]
          exact ⟨fun e => e.imp (fun e => by rw [e]) id, fun e => e.imp (fun e => by omega) id⟩
        · refine hc.rel.2.frame (fun x hx => ?_) (fun x hx => ?_)
          · exact List.getElem?_set_ne (by rintro rfl; exact hdist.1 hx)
          · rw [List.mem_cons]
            exact ⟨fun e => e.resolve_left (by show ¬ x = b + d; have : b + s.seg.size ≤ x := hx; omega), .inr⟩
        · rw [ptrs_cons, hs]
          simpa using hdist
        · rw [ptrs_cons, hs]
          intro x hx
          rw [List.length_set]
          exact hlt x (by simpa using hx)
        · intro i x y hx hy
          rw [hx] at hy
          exact .inr (by cases hy; rfl)
        · intro x hx hn
          rw [ptrs_cons, hs] at hn
          exact List.getElem?_set_ne (by rintro rfl; exact hn (by simp))
        · intro x hx
          exact .inl hx
    · rw [if_neg h]
      have hdr : (ptrs r).Nodup := (List.nodup_append.1 hdist).2.1
      obtain ⟨segs', heap', a1, a2, a3, a4, a5, a6, a7⟩ := ih (heap := heap) (b := b + s.seg.size) (d := d - s.seg.size)
        ⟨hc.rel.2, hdr, fun x hx => hlt x (List.mem_append_right _ hx)⟩ (by omega)
      rw [show b + s.seg.size + (d - s.seg.size) = b + d by omega] at a2
      rw [a1]
      have hne : ∀ x, s.del = some x → x ∉ ptrs r := by
        intro x hx hm
        rw [hx] at hdist
        simp only [Option.toList_some, List.singleton_append, List.nodup_cons] at hdist
        exact hdist.1 hm
      have hxl : ∀ x, s.del = some x → x < heap.length := by
        intro x hx
        exact hlt x (by rw [hx]; simp)
      refine ⟨_, _, rfl, ⟨⟨?_, a2.rel⟩, ?_, ?_⟩, by simp [a3], ?_, a5, ?_, ?_⟩
      · refine hc.rel.1.frame (fun x hx => a6 x (hxl x hx) (hne x hx)) (fun o ho => ?_)
        rw [List.mem_cons]
        exact ⟨fun e => e.resolve_left (by omega), .inr⟩
      · rw [ptrs_cons]
        cases hs : s.del with
        | none => simpa using a2.dist
        | some x =>
          simp only [Option.toList_some, List.singleton_append, List.nodup_cons]
          refine ⟨fun hm => ?_, a2.dist⟩
          rcases a7 x hm with hm | hm
          · exact hne x hs hm
          · exact absurd (hxl x hs) (by omega)
      · rw [ptrs_cons]
        intro x hx
        rcases List.mem_append.1 hx with hx | hx
        · exact Nat.lt_of_lt_of_le (hlt x (List.mem_append_left _ hx)) a5
        · exact a2.lt x hx
      · intro i x y hx hy
        cases i with
        | zero => cases hx; cases hy; exact .inr rfl
        | succ i =>
          rw [List.getElem?_cons_succ] at hx hy
          exact a4 i x y hx hy
      · intro x hx hn
        rw [ptrs_cons] at hn
        exact a6 x hx (fun hm => hn (List.mem_append_right _ hm))
      · intro x hx
        rw [ptrs_cons] at hx ⊢
        rcases List.mem_append.1 hx with hx | hx
        · exact .inl (List.mem_append_left _ hx)
        · exact (a7 x hx).imp (List.mem_append_right _) id

/-! ### Undoing deletions -/

theorem undeleteAll_segs : ∀ (segs : List Seg) (heap : Heap), (undeleteAll heap segs).1 = segs.map (fun s => { s with del := none })
  | [], _ => rfl
  | s :: r, heap => by
    unfold undeleteAll
    cases hs : s.del with
    | none =>
      simp only [undeleteAll_segs r, List.map_cons]
      rw [show ({ s with del := none } : Seg) = s by cases s; simp only at hs; rw [hs]]
    | some x => simp only [undeleteAll_segs r, List.map_cons]

theorem cleared_rel (heap : Heap) : ∀ (segs : List Seg) (b : Nat), SegsRel heap [] b (segs.map (fun s => { s with del := none }))
  | [], _ => trivial
  | s :: r, b => ⟨fun o _ => by simp, cleared_rel heap r _⟩

theorem cleared_ptrs (segs : List Seg) : ptrs (segs.map (fun s => { s with del := none })) = [] := by
  unfold ptrs
  rw [List.filterMap_map]
  exact List.filterMap_eq_nil_iff.2 (fun s _ => rfl)

theorem SubsRel.cleared : ∀ {segs : List Seg} {b : Nat} {us : List Sub} {items : List (Nat × Bool)}, SubsRel b segs us items → items.any (·.2) = false →
    SubsRel b (segs.map (fun s => { s with del := none })) us items := by
  intro segs
  induction segs with
  | nil => intro b us items hu _; exact hu
  | cons s r ih =>
    intro b us items hu hf
    cases us with
    | nil => exact hu.elim
    | cons u us =>
      obtain ⟨h1, h2, h3, h4, items', rfl, h5⟩ := hu
      rw [List.any_append, Bool.or_eq_false_iff] at hf
      refine ⟨h1, h2, h3, ?_, items', rfl, ih h5 hf.2⟩
      cases hr : u.rest with
      | nil => exact .inl rfl
      | cons d rest =>
        rw [hr] at hf
        have := hf.1
        simp only [List.map_cons, List.any_cons, Bool.or_eq_false_iff] at this
        exact .inr (.inl (by simpa using this.1))

/-! ### Any call -/

/-- The reader and its enumerations. -/
structure Rel (segs : List EnumSeg) (m : Rd) (s : EnumState) : Prop where
  segs : m.segs.map (·.seg) = segs
  core : Core m.segs m.heap s.dead 0
  len : m.enums.length = s.enums.length
  enums : ∀ (e : Nat) (items : List (Nat × Bool)), s.enums[e]? = some (some items) → ∃ us, m.enums[e]? = some (some us) ∧ SubsRel 0 m.segs us items

theorem Core.congr {segs : List Seg} {heap : Heap} {dead dead' : List Nat} {b : Nat} (h : Core segs heap dead b) (hd : ∀ x, x ∈ dead' ↔ x ∈ dead) : Core segs heap dead' b :=
  ⟨h.rel.frame (fun _ _ => rfl) (fun x _ => hd x), h.dist, h.lt⟩

theorem deleteDoc_spec {m : Rd} {dead : List Nat} {d : Nat} (h : Core m.segs m.heap dead 0) (hd : d < maxDoc m.segs) :
    ∃ m', deleteDoc m d = .ok m' ∧ Core m'.segs m'.heap (d :: dead) 0 ∧ m'.segs.map (·.seg) = m.segs.map (·.seg) ∧ m'.enums = m.enums ∧
      ∀ us items, SubsRel 0 m.segs us items → SubsRel 0 m'.segs us items := by
  obtain ⟨segs', heap', a1, a2, a3, a4, _⟩ := mrDelete_spec h hd
  rw [Nat.zero_add] at a2
  refine ⟨{ m with segs := segs', heap := heap' }, ?_, a2, a3, rfl, fun us items hu => hu.same a3 a4⟩
  simp only [deleteDoc, if_pos hd, a1, Res.ok_bind]

theorem items_after {dead : List Nat} {items : List (Nat × Bool)} {d : Nat} {r : List (Nat × Bool)} (h : giveNext dead items = (some d, r)) :
    (∃ f, (d, f) ∈ items) ∧ r.length < items.length ∧ ∀ x ∈ items, x.1 ∈ dead ∨ x.1 = d ∨ x ∈ r := by
  unfold giveNext at h
  cases hw : items.dropWhile (fun x => x.2 && decide (x.1 ∈ dead)) with
  | nil => rw [hw] at h; simp at h
  | cons x r' =>
    rw [hw] at h
    simp only [Prod.mk.injEq, Option.some.injEq] at h
    obtain ⟨rfl, rfl⟩ := h
    have e := List.takeWhile_append_dropWhile (p := fun x : Nat × Bool => x.2 && decide (x.1 ∈ dead)) (l := items)
    rw [hw] at e
    refine ⟨⟨x.2, by rw [← e]; simp⟩, ?_, ?_⟩
    · have := congrArg List.length e
      simp at this
      omega
    · intro y hy
      rw [← e] at hy
      rcases List.mem_append.1 hy with hy | hy
      · have := List.all_eq_true.1 List.all_takeWhile y hy
        simp only [Bool.and_eq_true, decide_eq_true_eq] at this
        exact .inl this.2
      · rcases List.mem_cons.1 hy with rfl | hy
        · exact .inr (.inl rfl)
        · exact .inr (.inr hy)

theorem items_none {dead : List Nat} {items : List (Nat × Bool)} (h : (giveNext dead items).1 = none) : ∀ x ∈ items, x.1 ∈ dead := by
  unfold giveNext at h
  cases hw : items.dropWhile (fun x => x.2 && decide (x.1 ∈ dead)) with
  | nil =>
    intro y hy
    have e := List.takeWhile_append_dropWhile (p := fun x : Nat × Bool => x.2 && decide (x.1 ∈ dead)) (l := items)
    rw [hw, List.append_nil] at e
    rw [← e] at hy
    have := List.all_eq_true.1 List.all_takeWhile y hy
    simp only [Bool.and_eq_true, decide_eq_true_eq] at this
    exact this.2
  | cons x r' => rw [hw] at h; simp at h

theorem giveNext_sub {dead : List Nat} {items : List (Nat × Bool)} {d : Nat} {r : List (Nat × Bool)} (h : giveNext dead items = (some d, r)) : ∀ x ∈ r, x ∈ items := by
  unfold giveNext at h
  cases hw : items.dropWhile (fun x => x.2 && decide (x.1 ∈ dead)) with
  | nil => rw [hw] at h; simp at h
  | cons x r' =>
    rw [hw] at h
    simp only [Prod.mk.injEq, Option.some.injEq] at h
    obtain ⟨_, rfl⟩ := h
    exact (dropWhile_sub _ hw).2

theorem deleteLoop_spec : ∀ (n : Nat) {m : Rd} {dead : List Nat} {us : List Sub} {items : List (Nat × Bool)}, Core m.segs m.heap dead 0 → SubsRel 0 m.segs us items → items.length < n →
    ∃ m' dead', deleteLoop n m us = .ok m' ∧ Core m'.segs m'.heap dead' 0 ∧ (∀ x, x ∈ dead' ↔ x ∈ dead ∨ ∃ f, (x, f) ∈ items) ∧
      m'.segs.map (·.seg) = m.segs.map (·.seg) ∧ m'.enums = m.enums ∧ ∀ us items, SubsRel 0 m.segs us items → SubsRel 0 m'.segs us items := by
  intro n
  induction n with
  | zero => intro m dead us items _ _ h; exact absurd h (Nat.not_lt_zero _)
  | succ n ih =>
    intro m dead us items hc hu hn
    obtain ⟨us', k1, k2⟩ := subsNext_spec hc.rel hu
    simp only [deleteLoop, k1, Res.ok_bind]
    cases hg : (giveNext dead items).1 with
    | none =>
      refine ⟨m, dead, rfl, hc, fun x => ⟨.inl, ?_⟩, rfl, rfl, fun _ _ h => h⟩
      rintro (h | ⟨f, h⟩)
      · exact h
      · exact items_none hg _ h
    | some d =>
      have hg' : giveNext dead items = (some d, (giveNext dead items).2) := by rw [← hg]
      obtain ⟨⟨f, hf⟩, hl, hcov⟩ := items_after hg'
      have hd : d < maxDoc m.segs := by
        have := (items_ge hu _ hf).2
        simpa using this
      obtain ⟨m1, b1, b2, b3, b4, b5⟩ := deleteDoc_spec hc hd
      obtain ⟨m2, dead2, c1, c2, c3, c4, c5, c6⟩ := ih b2 (b5 _ _ k2) (by omega)
      simp only [b1, Res.ok_bind, c1]
      refine ⟨m2, dead2, rfl, c2, ?_, c4.trans b3, c5.trans b4, fun us items h => c6 _ _ (b5 _ _ h)⟩
      intro x
      rw [c3 x, List.mem_cons]
      constructor
      · rintro ((rfl | h) | ⟨g, h⟩)
        · exact .inr ⟨f, hf⟩
        · exact .inl h
        · exact .inr ⟨g, giveNext_sub hg' _ h⟩
      · rintro (h | ⟨g, h⟩)
        · exact .inl (.inr h)
        · rcases hcov _ h with h | h | h
          · exact .inl (.inr h)
          · exact .inl (.inl h)
          · exact .inr ⟨g, h⟩

theorem openSubs_len (dead : List Nat) (t : Nat) : ∀ (segs : List Seg) (b : Nat),
    (openItems dead t b (segs.map (·.seg))).length = ((openSubs t b segs).map (fun u => u.rest.length)).sum
  | [], _ => rfl
  | s :: r, b => by
    simp only [List.map_cons, openItems, openSubs, List.length_append, List.length_map, List.sum_cons]
    rw [openSubs_len dead t r]

theorem isDeleted_spec {heap : Heap} {dead : List Nat} : ∀ {segs : List Seg} {b d : Nat}, SegsRel heap dead b segs → d < maxDoc segs →
    isDeleted heap segs d = .ok (decide (b + d ∈ dead)) := by
  intro segs
  induction segs with
  | nil => intro b d _ hd; exact absurd hd (by simp [maxDoc])
  | cons s r ih =>
    intro b d h hd
    have hmx : maxDoc (s :: r) = s.seg.size + maxDoc r := by simp [maxDoc]
    simp only [isDeleted]
    by_cases hs : d < s.seg.size
    · rw [if_pos hs]
      have h1 := h.1
      unfold DelOk at h1
      cases hdel : s.del with
      | none =>
        rw [hdel] at h1
        simp only [h1 d hs, decide_false]
      | some x =>
        rw [hdel] at h1
        obtain ⟨l, l1, l2, _⟩ := h1
        simp only [marked, l1, l2 d hs]
    · rw [if_neg hs, ih h.2 (by omega), show b + s.seg.size + (d - s.seg.size) = b + d by omega]

theorem getElem?_set_iff {α : Type} {l : List (Option α)} {e i : Nat} {x : Option α} {y : α} (h : (l.set e x)[i]? = some (some y)) :
    (i = e ∧ x = some y) ∨ (i ≠ e ∧ l[i]? = some (some y)) := by
  rw [List.getElem?_set] at h
  by_cases he : e = i
  · rw [if_pos he] at h
    split at h
    · exact .inl ⟨he.symm, by simpa using h⟩
    · cases h
  · rw [if_neg he] at h
    exact .inr ⟨Ne.symm he, h⟩

theorem maxDoc_eq (m : Rd) : maxDoc m.segs = ((m.segs.map (·.seg)).map (·.size)).sum := by
  simp [maxDoc, List.map_map, Function.comp_def]

/-- **One call.** -/
theorem step_spec {segs : List EnumSeg} (hw : ∀ s ∈ segs, ∀ t, ∀ o ∈ s.docs t, o < s.size) {m : Rd} {s : EnumState} (h : Rel segs m s) {op : EnumOp} {o : EnumObs} {s' : EnumState}
    (hs : enumStep segs s op = some (o, s')) : ∃ m', step m op = .ok (o, m') ∧ Rel segs m' s' := by
  have hw' : ∀ t, ∀ x ∈ m.segs, ∀ o ∈ x.seg.docs t, o < x.seg.size := by
    intro t x hx o ho
    exact hw x.seg (by rw [← h.segs]; exact List.mem_map.2 ⟨x, hx, rfl⟩) t o ho
  have hmx : maxDoc m.segs = (segs.map (·.size)).sum := by rw [maxDoc_eq, h.segs]
  cases op with
  | openEnum t =>
    cases hs
    have hop := openSubs_spec t (hw' t) h.core.rel
    rw [h.segs] at hop
    refine ⟨_, rfl, h.segs, h.core, by simp [h.len], ?_⟩
    intro e items he
    by_cases hlt : e < s.enums.length
    · rw [List.getElem?_append_left hlt] at he
      obtain ⟨us, u1, u2⟩ := h.enums e items he
      exact ⟨us, by rw [List.getElem?_append_left (by rw [h.len]; exact hlt)]; exact u1, u2⟩
    · have hb := (List.getElem?_eq_some_iff.1 he).1
      have : e = s.enums.length := by simp at hb; omega
      subst this
      simp only [List.getElem?_concat_length, Option.some.injEq] at he
      subst he
      exact ⟨_, by rw [← h.len]; simp, hop⟩
  | next e =>
    simp only [enumStep] at hs
    split at hs
    · rename_i items he
      cases hs
      obtain ⟨us, u1, u2⟩ := h.enums e items he
      obtain ⟨us', k1, k2⟩ := subsNext_spec h.core.rel u2
      refine ⟨{ m with enums := m.enums.set e (some us') }, by simp only [step, getEnum, u1, Res.ok_bind, k1], h.segs, h.core, by simp [h.len], ?_⟩
      intro i items' hi
      rcases getElem?_set_iff hi with ⟨rfl, hx⟩ | ⟨hne, hx⟩
      · cases hx
        exact ⟨us', by simp [(List.getElem?_eq_some_iff.1 u1).1], k2⟩
      · obtain ⟨vs, v1, v2⟩ := h.enums i items' hx
        exact ⟨vs, by simp only [List.getElem?_set_ne (Ne.symm hne), v1], v2⟩
    · cases hs
  | skipTo e target =>
    simp only [enumStep] at hs
    split at hs
    · rename_i items he
      cases hs
      obtain ⟨us, u1, u2⟩ := h.enums e items he
      obtain ⟨us', k1, k2⟩ := subsSkipTo_spec target h.core.rel u2
      refine ⟨{ m with enums := m.enums.set e (some us') }, by simp only [step, getEnum, u1, Res.ok_bind, k1], h.segs, h.core, by simp [h.len], ?_⟩
      intro i items' hi
      rcases getElem?_set_iff hi with ⟨rfl, hx⟩ | ⟨hne, hx⟩
      · cases hx
        exact ⟨us', by simp [(List.getElem?_eq_some_iff.1 u1).1], k2⟩
      · obtain ⟨vs, v1, v2⟩ := h.enums i items' hx
        exact ⟨vs, by simp only [List.getElem?_set_ne (Ne.symm hne), v1], v2⟩
    · cases hs
  | close e =>
    simp only [enumStep] at hs
    split at hs
    · rename_i items he
      cases hs
      obtain ⟨us, u1, u2⟩ := h.enums e items he
      refine ⟨{ m with enums := m.enums.set e none }, by simp only [step, getEnum, u1, Res.ok_bind], h.segs, h.core, by simp [h.len], ?_⟩
      intro i items' hi
      rcases getElem?_set_iff hi with ⟨_, hx⟩ | ⟨hne, hx⟩
      · cases hx
      · obtain ⟨vs, v1, v2⟩ := h.enums i items' hx
        exact ⟨vs, by simp only [List.getElem?_set_ne (Ne.symm hne), v1], v2⟩
    · cases hs
  | delete d =>
    simp only [enumStep, Option.some.injEq, Prod.mk.injEq] at hs
    obtain ⟨rfl, rfl⟩ := hs
    by_cases hd : d < (segs.map (·.size)).sum
    · rw [if_pos hd]
      obtain ⟨m1, b1, b2, b3, b4, b5⟩ := deleteDoc_spec h.core (by rw [hmx]; exact hd)
      refine ⟨m1, by simp only [step, b1, Res.ok_bind], b3.trans h.segs, b2, by rw [b4]; exact h.len, ?_⟩
      intro e items he
      obtain ⟨us, u1, u2⟩ := h.enums e items he
      exact ⟨us, by rw [b4]; exact u1, b5 _ _ u2⟩
    · rw [if_neg hd]
      exact ⟨m, by simp only [step, deleteDoc, hmx, if_neg hd, Res.ok_bind], h⟩
  | undelete =>
    cases hs
    refine ⟨_, rfl, ?_, ⟨?_, ?_, ?_⟩, by simp [h.len], ?_⟩
    · simp only [undeleteAll_segs, List.map_map]
      exact h.segs
    · simp only [undeleteAll_segs]
      exact cleared_rel _ _ _
    · simp only [undeleteAll_segs, cleared_ptrs]
      exact List.nodup_nil
    · simp only [undeleteAll_segs, cleared_ptrs]
      intro r hr
      cases hr
    · intro e items he
      simp only [List.getElem?_map, Option.map_eq_some_iff] at he
      obtain ⟨o, ho, hb⟩ := he
      cases o with
      | none => cases hb
      | some items0 =>
        simp only [Option.bind_some] at hb
        split at hb
        · cases hb
        · rename_i hany
          cases hb
          obtain ⟨us, u1, u2⟩ := h.enums e _ ho
          refine ⟨us, u1, ?_⟩
          simp only [undeleteAll_segs]
          exact u2.cleared (by simpa using hany)
  | isDeleted d =>
    simp only [enumStep] at hs
    split at hs
    · rename_i hd
      cases hs
      refine ⟨m, ?_, h⟩
      have := isDeleted_spec (d := d) h.core.rel (by rw [hmx]; exact hd)
      rw [Nat.zero_add] at this
      simp only [step, this, Res.ok_bind]
    · cases hs
  | lookup t =>
    cases hs
    refine ⟨m, ?_, h⟩
    have hop := openSubs_spec t (hw' t) h.core.rel
    rw [h.segs] at hop
    obtain ⟨us', k1, _⟩ := subsNext_spec h.core.rel hop
    simp only [step, lookup, k1, Res.ok_bind]
    rw [giveNext_find _ _ (openItems_unseen _ t segs 0 (fun x hx => hw x hx t)), openItems_docs]
  | deleteTerm t =>
    cases hs
    have hop := openSubs_spec t (hw' t) h.core.rel
    obtain ⟨m1, dead1, c1, c2, c3, c4, c5, c6⟩ := deleteLoop_spec _ h.core hop (by rw [openSubs_len]; exact Nat.lt_succ_self _)
    refine ⟨m1, by simp only [step, deleteTerm, c1, Res.ok_bind], c4.trans h.segs, c2.congr ?_, by rw [c5]; exact h.len, ?_⟩
    · intro x
      rw [c3 x, List.mem_append, h.segs, ← openItems_docs s.dead t segs 0, List.mem_map]
      constructor
      · rintro (⟨y, hy, rfl⟩ | hx)
        · exact .inr ⟨y.2, hy⟩
        · exact .inl hx
      · rintro (hx | ⟨f, hx⟩)
        · exact .inr hx
        · exact .inl ⟨_, hx, rfl⟩
    · intro e items he
      obtain ⟨us, u1, u2⟩ := h.enums e items he
      exact ⟨us, by rw [c5]; exact u1, c6 _ _ u2⟩

theorem rel_fresh (segs : List EnumSeg) : Rel segs (fresh segs) ⟨[], []⟩ where
  segs := by simp [fresh, List.map_map, Function.comp_def]
  core := by
    have e : (fresh segs).segs = ((segs.map (fun s => (⟨s, none⟩ : Seg))).map (fun s => { s with del := none })) := by
      simp [fresh, List.map_map, Function.comp_def]
    refine ⟨?_, ?_, ?_⟩
    · rw [e]; exact cleared_rel _ _ _
    · rw [e, cleared_ptrs]; exact List.nodup_nil
    · rw [e, cleared_ptrs]; intro r hr; cases hr
  len := rfl
  enums e items he := by simp at he

/-- **Any calls.** -/
theorem run_spec {segs : List EnumSeg} (hw : ∀ s ∈ segs, ∀ t, ∀ o ∈ s.docs t, o < s.size) : ∀ (ops : List EnumOp) {m : Rd} {s : EnumState}, Rel segs m s →
    ∀ {obs : List EnumObs} {s' : EnumState}, enumRun segs s ops = some (obs, s') → ∃ m', run m ops = .ok (obs, m') ∧ Rel segs m' s' := by
  intro ops
  induction ops with
  | nil => intro m s h obs s' hs; cases hs; exact ⟨m, rfl, h⟩
  | cons op ops ih =>
    intro m s h obs s' hs
    simp only [enumRun, Option.bind_eq_some_iff, Option.map_eq_some_iff] at hs
    obtain ⟨⟨o1, s1⟩, g1, ⟨o2, s2⟩, g2, g3⟩ := hs
    cases g3
    obtain ⟨m1, k1, r1⟩ := step_spec hw h g1
    obtain ⟨m2, k2, r2⟩ := ih r1 g2
    exact ⟨m2, by simp only [run, k1, Res.ok_bind, k2], r2⟩

end Ferret.EnumDel
