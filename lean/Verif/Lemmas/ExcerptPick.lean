import Verif.Lemmas.ExcerptChoice

namespace Ferret.Excerpt
open Ferret Ferret.Spec Ferret.PQ

theorem zeroed_get (s t : Int) : ∀ (ms : List Mt) (i k : Nat), (zeroed i s t ms)[k]? =
    ms[k]?.map fun m => if s ≤ ((i + k : Nat) : Int) ∧ ((i + k : Nat) : Int) ≤ t then { m with score := 0 } else m := by
  intro ms
  induction ms with
  | nil => intro i k; simp [zeroed]
  | cons m ms ih =>
    intro i k
    cases k with
    | zero => simp [zeroed]
    | succ k =>
      simp only [zeroed, List.getElem?_cons_succ, ih]
      rw [show i + 1 + k = i + (k + 1) by omega]

/-- The matches, the scores of those in the windows seen being 0. -/
def After (ms0 : List Mt) (seen : List (Nat × Nat)) (ms : List Mt) : Prop :=
  ∀ k : Nat, ms[k]? = ms0[k]?.map fun m => { m with score := if inWindows seen k then 0 else m.score }

theorem After.length {ms0 ms : List Mt} {seen : List (Nat × Nat)} (h : After ms0 seen ms) : ms.length = ms0.length := by
  have key : ∀ a b : List Mt, (∀ k : Nat, a[k]? = none → b[k]? = none) → b.length ≤ a.length := by
    intro a b hk
    have := hk a.length (List.getElem?_eq_none (Nat.le_refl _))
    exact List.getElem?_eq_none_iff.1 this
  refine Nat.le_antisymm (key _ _ ?_) (key _ _ ?_)
  · intro k hk; rw [h k, hk]; rfl
  · intro k hk; rw [h k] at hk; simpa using hk

theorem after_start (ms0 : List Mt) : After ms0 [] ms0 := by
  intro k
  cases ms0[k]? <;> simp [inWindows]

theorem after_zeroed {ms0 ms : List Mt} {seen : List (Nat × Nat)} (h : After ms0 seen ms) (s t : Nat) :
    After ms0 ((s, t) :: seen) (zeroed 0 s t ms) := by
  intro k
  rw [zeroed_get, h k]
  cases ms0[k]? with
  | none => rfl
  | some m =>
    simp only [Option.map_some, Option.some.injEq, inWindows, List.any_cons, Nat.zero_add]
    by_cases hk : s ≤ k ∧ k ≤ t
    · rw [if_pos (by omega)]
      simp [hk]
    · rw [if_neg (by omega)]
      have : (decide (s ≤ k) && decide (k ≤ t)) = false := by
        rw [Bool.and_eq_false_iff]; simp only [decide_eq_false_iff_not]; omega
      simp only [this, Bool.false_or]
      rfl

theorem sum_range (f : Mt → Int) (l : List Mt) : ∀ (n s : Nat), s + n ≤ l.length → (((l.drop s).take n).map f).sum =
    ((List.range' s n).map fun k => match l[k]? with | some m => f m | none => 0).sum := by
  intro n
  induction n with
  | zero => intro s _; simp
  | succ n ih =>
    intro s h
    have hs : s < l.length := by omega
    rw [List.drop_eq_getElem_cons hs, List.range'_succ]
    simp only [List.take_succ_cons, List.map_cons, List.sum_cons, List.getElem?_eq_getElem hs]
    rw [ih (s + 1) (by omega)]

theorem After.worth {ms0 ms : List Mt} {seen : List (Nat × Nat)} (h : After ms0 seen ms) {s t : Nat} (hst : s ≤ t) (ht : t < ms0.length) :
    sumR ms s (t + 1) = Spec.worth (ms0.map hitOf) seen (s, t) := by
  unfold sumR Spec.worth
  rw [sum_range _ _ _ _ (by rw [h.length]; omega)]
  congr 1
  apply List.map_congr_left
  intro k hk
  rw [h k, List.getElem?_map]
  cases ms0[k]? with
  | none => simp
  | some m => rfl

theorem worth_nonneg {ms0 : List Mt} (h0 : ∀ m ∈ ms0, 0 ≤ m.score) (seen : List (Nat × Nat)) (k : Nat) :
    0 ≤ if inWindows seen k then 0 else match (ms0.map hitOf)[k]? with | some h => h.score | none => 0 := by
  split
  · omega
  · split
    · rename_i h e
      obtain ⟨m, hm, rfl⟩ := map_hit e
      exact h0 m (List.mem_of_getElem? hm)
    · omega

theorem sum_le {f g : Nat → Int} : ∀ l : List Nat, (∀ k ∈ l, f k ≤ g k) → (l.map f).sum ≤ (l.map g).sum := by
  intro l
  induction l with
  | nil => intro _; simp
  | cons k l ih =>
    intro h
    have h1 := h k (by simp)
    have h2 := ih (fun x hx => h x (by simp [hx]))
    simp only [List.map_cons, List.sum_cons]
    omega

/-- What is seen makes windows worth less. -/
theorem worth_seen {ms0 : List Mt} (h0 : ∀ m ∈ ms0, 0 ≤ m.score) (seen : List (Nat × Nat)) (v w : Nat × Nat) :
    Spec.worth (ms0.map hitOf) (v :: seen) w ≤ Spec.worth (ms0.map hitOf) seen w := by
  unfold Spec.worth
  apply sum_le
  intro k _
  have hn := worth_nonneg h0 seen k
  by_cases hs : inWindows seen k = true
  · have : inWindows (v :: seen) k = true := by unfold inWindows at hs ⊢; rw [List.any_cons, hs, Bool.or_true]
    rw [if_pos hs, if_pos this]; omega
  · rw [if_neg hs] at hn ⊢
    split
    · exact hn
    · omega

/-- The window of an excerpt. -/
def keyOf (e : Ex) : Nat × Nat := (e.start.toNat, e.stop.toNat)

theorem IsWin.key {len : Int} {ms : List Mt} {e : Ex} (h : IsWin len ms e) :
    e.start = (keyOf e).1 ∧ e.stop = (keyOf e).2 ∧ IsWindow len (ms.map hitOf) (keyOf e) := by
  obtain ⟨s, t, h1, h2, h3⟩ := h
  unfold keyOf
  rw [h1, h2]
  exact ⟨rfl, rfl, h3⟩

theorem recalc_spec {len : Int} {ms0 ms : List Mt} {seen : List (Nat × Nat)} (ha : After ms0 seen ms) {e : Ex} (he : IsWin len ms0 e) :
    recalc e ms = .ok { e with score := Spec.worth (ms0.map hitOf) seen (keyOf e) } ∧
      ∃ r, runOf ms e.start e.stop = .ok r := by
  obtain ⟨k1, k2, k3⟩ := he.key
  have h1 := k3.order
  have h2 := k3.there
  simp only [List.length_map] at h2
  have hrun : runOf ms e.start e.stop = .ok ((ms.drop (keyOf e).1).take ((keyOf e).2 + 1 - (keyOf e).1)) := by
    unfold runOf
    rw [k1, k2, if_pos (by omega), if_neg (by rw [ha.length]; omega)]
    simp only [Int.toNat_natCast]
    congr 2
    omega
  refine ⟨?_, _, hrun⟩
  unfold recalc
  rw [hrun, Res.ok_bind]
  have := ha.worth h1 h2
  unfold sumR at this
  rw [this]

/-- The excerpts of a queue: windows not seen, all of them, whose scores are not too low. -/
structure QueueOf (len : Int) (ms0 : List Mt) (seen : List (Nat × Nat)) (h : List Ex) : Prop where
  win : ∀ e ∈ h, IsWin len ms0 e
  high : ∀ e ∈ h, Spec.worth (ms0.map hitOf) seen (keyOf e) ≤ e.score
  new : ∀ e ∈ h, keyOf e ∉ seen
  nodup : (h.map (·.start)).Nodup
  all : ∀ w, IsWindow len (ms0.map hitOf) w → w ∉ seen → w ∈ h.map keyOf

/-- Does an excerpt have the score of what is not seen? -/
def exact (ms0 : List Mt) (seen : List (Nat × Nat)) (e : Ex) : Bool := decide (e.score = Spec.worth (ms0.map hitOf) seen (keyOf e))

theorem down_heap {h : List Ex} (hh : IsHeap exLt h) : down exLt h = .ok h := by
  unfold down
  cases h with
  | nil => rfl
  | cons t r =>
    simp only []
    unfold downLoop
    obtain ⟨j, hj1, hj2⟩ : ∃ j, childOf exLt (t :: r) 1 = .ok j ∧ (j = 2 ∨ j = 3) := by
      unfold childOf
      split
      · rename_i hle
        obtain ⟨a, ha, _⟩ := slot_eq (t :: r) (2 * 1 + 1) (by omega) hle
        obtain ⟨b, hb, _⟩ := slot_eq (t :: r) (2 * 1) (by omega) (by omega)
        rw [ha, hb]
        simp only [Res.ok_bind]
        split
        · exact ⟨3, rfl, .inr rfl⟩
        · exact ⟨2, rfl, .inl rfl⟩
      · exact ⟨2, rfl, .inl rfl⟩
    rw [hj1, Res.ok_bind]
    split
    · rename_i hle
      obtain ⟨c, hc, hc', _⟩ := slot_eq (t :: r) j (by omega) hle
      rw [hc, Res.ok_bind]
      have : exLt c t = false := hh j c t (by omega) hc' (by
        have : j / 2 = 1 := by omega
        rw [this]; rfl)
      rw [this]
      rfl
    · rfl

theorem eq_of_start : ∀ {h : List Ex}, (h.map (·.start)).Nodup → ∀ {x y : Ex}, x ∈ h → y ∈ h → x.start = y.start → x = y := by
  intro h
  induction h with
  | nil => intro _ x y hx; simp at hx
  | cons a h ih =>
    intro hn x y hx hy e
    simp only [List.map_cons, List.nodup_cons, List.mem_map] at hn
    rcases List.mem_cons.1 hx with hx | hx <;> rcases List.mem_cons.1 hy with hy | hy
    · rw [hx, hy]
    · exact absurd ⟨y, hy, by rw [← e, hx]⟩ hn.1
    · exact absurd ⟨x, hx, by rw [e, hy]⟩ hn.1
    · exact ih hn.2 hx hy e

theorem QueueOf.perm {len : Int} {ms0 : List Mt} {seen : List (Nat × Nat)} {h h' : List Ex} (hq : QueueOf len ms0 seen h) (hp : h'.Perm h) :
    QueueOf len ms0 seen h' :=
  ⟨fun e he => hq.win e (hp.mem_iff.1 he), fun e he => hq.high e (hp.mem_iff.1 he), fun e he => hq.new e (hp.mem_iff.1 he),
   (hp.map _).nodup_iff.2 hq.nodup, fun w hw hs => (hp.map _).mem_iff.2 (hq.all w hw hs)⟩

theorem settle_spec {len : Int} {ms0 ms : List Mt} {seen : List (Nat × Nat)} (ha : After ms0 seen ms) :
    ∀ (n : Nat) (last : Option Int) (h : List Ex), IsHeap exLt h → QueueOf len ms0 seen h →
    (∀ x ∈ h, last = some x.start → exact ms0 seen x = true) →
    (h.countP (fun x => !exact ms0 seen x) + 2 ≤ n ∨ (∃ t r, h = t :: r ∧ last = some t.start ∧ 1 ≤ n)) →
    ∃ h', settle ms n last h = .ok h' ∧ IsHeap exLt h' ∧ QueueOf len ms0 seen h' ∧ h'.length = h.length ∧
      ∀ t r, h' = t :: r → exact ms0 seen t = true := by
  intro n
  induction n with
  | zero =>
    intro last h _ _ _ hn
    rcases hn with hn | ⟨t, r, _, _, hn⟩ <;> omega
  | succ n ih =>
    intro last h hh hq hl hn
    cases h with
    | nil => exact ⟨[], rfl, hh, hq, rfl, fun t r e => by cases e⟩
    | cons t h =>
      unfold settle
      by_cases he : last = some t.start
      · rw [if_pos he]
        refine ⟨_, rfl, hh, hq, rfl, ?_⟩
        intro t' r e
        cases e
        exact hl t (by simp) he
      · rw [if_neg he]
        have hw := hq.win t (by simp)
        obtain ⟨r1, _⟩ := recalc_spec ha hw
        rw [r1, Res.ok_bind]
        have hn' : (t :: h).countP (fun x => !exact ms0 seen x) + 2 ≤ n + 1 := by
          rcases hn with hn | ⟨t', r', e, e', _⟩
          · exact hn
          · cases e; exact absurd e' he
        by_cases hx : exact ms0 seen t = true
        · -- nothing changes
          have ht : { t with score := Spec.worth (ms0.map hitOf) seen (keyOf t) } = t := by
            unfold exact at hx
            rw [decide_eq_true_eq] at hx
            rw [← hx]
          rw [ht, down_heap hh, Res.ok_bind]
          refine ih (some t.start) (t :: h) hh hq ?_ (.inr ⟨t, h, rfl, rfl, by omega⟩)
          intro x hx2 e
          simp only [Option.some.injEq] at e
          rw [eq_of_start hq.nodup hx2 (by simp) e.symm]
          exact hx
        · generalize ht' : ({ t with score := Spec.worth (ms0.map hitOf) seen (keyOf t) } : Ex) = t'
          have k1 : t'.start = t.start := by rw [← ht']
          have k2 : keyOf t' = keyOf t := by rw [← ht']; rfl
          have k3 : exact ms0 seen t' = true := by
            unfold exact
            rw [k2, decide_eq_true_eq, ← ht']
          have hq' : QueueOf len ms0 seen (t' :: h) := by
            refine ⟨?_, ?_, ?_, ?_, ?_⟩
            · intro e hm
              rcases List.mem_cons.1 hm with rfl | hm
              · obtain ⟨s, u, a1, a2, a3⟩ := hw
                exact ⟨s, u, by rw [k1]; exact a1, by rw [← ht']; exact a2, a3⟩
              · exact hq.win e (by simp [hm])
            · intro e hm
              rcases List.mem_cons.1 hm with rfl | hm
              · unfold exact at k3
                rw [decide_eq_true_eq] at k3
                omega
              · exact hq.high e (by simp [hm])
            · intro e hm
              rcases List.mem_cons.1 hm with rfl | hm
              · rw [k2]; exact hq.new t (by simp)
              · exact hq.new e (by simp [hm])
            · have := hq.nodup
              simp only [List.map_cons, k1] at this ⊢
              exact this
            · intro w hw2 hs
              have := hq.all w hw2 hs
              simp only [List.map_cons, k2] at this ⊢
              exact this
          obtain ⟨h', d1, d2, d3⟩ := down_spec exLt_weak (t' :: h) (by
            intro k a b hk ha' hb
            refine hh k a b (by omega) ?_ ?_
            · unfold at? at ha' ⊢
              rw [if_neg (by omega)] at ha' ⊢
              obtain ⟨j, hj⟩ : ∃ j, k - 1 = j + 1 := ⟨k - 2, by omega⟩
              rw [hj] at ha' ⊢
              simpa using ha'
            · unfold at? at hb ⊢
              rw [if_neg (by omega)] at hb ⊢
              obtain ⟨j, hj⟩ : ∃ j, k / 2 - 1 = j + 1 := ⟨k / 2 - 2, by omega⟩
              rw [hj] at hb ⊢
              simpa using hb)
          rw [d1, Res.ok_bind]
          have hq'' := hq'.perm d3
          have hcount : h'.countP (fun x => !exact ms0 seen x) = h.countP (fun x => !exact ms0 seen x) := by
            rw [d3.countP_eq, List.countP_cons, k3]; rfl
          have hcount2 : (t :: h).countP (fun x => !exact ms0 seen x) = h.countP (fun x => !exact ms0 seen x) + 1 := by
            rw [List.countP_cons]
            simp [hx]
          obtain ⟨h2, e1, e2, e3, e4, e5⟩ := ih (some t.start) h' d2 hq'' (by
            intro x hx2 e
            simp only [Option.some.injEq] at e
            have hxt : x = t' := eq_of_start hq'.nodup (d3.mem_iff.1 hx2) (by simp) (by rw [k1]; exact e.symm)
            rw [hxt]; exact k3) (.inl (by omega))
          exact ⟨h2, e1, e2, e3, by rw [e4, d3.length_eq]; simp, e5⟩

theorem pickLoop_spec {len : Int} {ms0 : List Mt} (h0 : ∀ m ∈ ms0, 0 ≤ m.score) : ∀ (n : Nat) (seen : List (Nat × Nat)) (ms : List Mt) (q : PQ Ex),
    After ms0 seen ms → Inv exLt q → QueueOf len ms0 seen q.heap → (∀ t r, q.heap = t :: r → exact ms0 seen t = true) →
    ∃ es, pickLoop n ms q = .ok es ∧ es.length = min n q.heap.length ∧ (es.map (·.start)).Nodup ∧
      (∀ e ∈ es, IsWin len ms0 e ∧ e.start ∈ q.heap.map (·.start)) ∧ BestFirst len (ms0.map hitOf) seen (es.map keyOf) := by
  intro n
  induction n with
  | zero => intro seen ms q _ _ _ _; exact ⟨[], rfl, by simp, by simp, by simp, trivial⟩
  | succ n ih =>
    intro seen ms q ha hi hq ht
    unfold pickLoop
    by_cases hne : q.heap = []
    · rw [pop_none q hne]
      refine ⟨[], rfl, by simp [hne], by simp, by simp, trivial⟩
    · obtain ⟨e, q', p1, p2, p3, p4, p5, p6⟩ := pop_spec exLt_weak q hi hne
      rw [p1, Res.ok_bind]
      simp only []
      have hmem : e ∈ q.heap := p4.mem_iff.1 (by simp)
      have hw := hq.win e hmem
      obtain ⟨k1, k2, k3⟩ := hw.key
      have hx : exact ms0 seen e = true := by
        unfold top at p5
        cases hh : q.heap with
        | nil => exact absurd hh hne
        | cons t r => rw [hh] at p5; simp only [List.head?_cons, Option.some.injEq] at p5; subst p5; exact ht t r hh
      have hbest : ∀ v, IsWindow len (ms0.map hitOf) v → v ∉ seen → Spec.worth (ms0.map hitOf) seen v ≤ Spec.worth (ms0.map hitOf) seen (keyOf e) := by
        intro v hv hs
        obtain ⟨x, x1, x2⟩ := List.mem_map.1 (hq.all v hv hs)
        have a1 := hq.high x x1
        have a2 := p6 x x1
        unfold exLt at a2
        unfold exact at hx
        rw [decide_eq_true_eq] at hx
        rw [decide_eq_false_iff_not] at a2
        rw [← x2]
        omega
      have hlen : q.heap.length = q'.heap.length + 1 := by rw [← p4.length_eq]; simp
      have hnd : ((e :: q'.heap).map (·.start)).Nodup := (p4.map _).nodup_iff.2 hq.nodup
      by_cases hn : n = 0
      · rw [if_pos hn]
        refine ⟨[e], rfl, by simp [hn, hlen], by simp, ?_, k3, hq.new e hmem, hbest, trivial⟩
        intro x hx'
        simp only [List.mem_cons, List.not_mem_nil, or_false] at hx'
        subst hx'
        exact ⟨hw, List.mem_map.2 ⟨x, hmem, rfl⟩⟩
      · rw [if_neg hn]
        obtain ⟨_, r, hr⟩ := recalc_spec ha hw
        rw [hr, Res.ok_bind]
        have ha' : After ms0 (keyOf e :: seen) (zeroed 0 e.start e.stop ms) := by
          have := after_zeroed ha (keyOf e).1 (keyOf e).2
          rw [k1, k2]
          exact this
        have hq' : QueueOf len ms0 (keyOf e :: seen) q'.heap := by
          have hsub : ∀ x ∈ q'.heap, x ∈ q.heap := fun x hx => p4.mem_iff.1 (by simp [hx])
          refine ⟨fun x hx => hq.win x (hsub x hx), ?_, ?_, (List.nodup_cons.1 hnd).2, ?_⟩
          · intro x hx
            have := worth_seen h0 seen (keyOf e) (keyOf x)
            have := hq.high x (hsub x hx)
            omega
          · intro x hx hm
            rcases List.mem_cons.1 hm with hm | hm
            · obtain ⟨a1, _, _⟩ := (hq.win x (hsub x hx)).key
              refine (List.nodup_cons.1 hnd).1 (List.mem_map.2 ⟨x, hx, ?_⟩)
              show x.start = e.start
              rw [a1, k1, hm]
            · exact hq.new x (hsub x hx) hm
          · intro w hw2 hs
            have := hq.all w hw2 (fun h => hs (by simp [h]))
            obtain ⟨x, x1, x2⟩ := List.mem_map.1 this
            rcases List.mem_cons.1 (p4.mem_iff.2 x1) with rfl | hx
            · exact absurd (by simp [x2]) hs
            · exact List.mem_map.2 ⟨x, hx, x2⟩
        obtain ⟨h', s1, s2, s3, s4, s5⟩ := settle_spec ha' (q'.heap.length + 2) none q'.heap p2.heap hq' (fun x _ e => by cases e)
          (.inl (by have := List.countP_le_length (p := fun x => !exact ms0 (keyOf e :: seen) x) (l := q'.heap); omega))
        rw [s1, Res.ok_bind]
        obtain ⟨es, i1, i2, i3, i4, i5⟩ := ih (keyOf e :: seen) (zeroed 0 e.start e.stop ms) { q' with heap := h' } ha'
          ⟨s2, by simp only [s4]; exact p2.mem⟩ s3 s5
        rw [i1, Res.ok_bind]
        have hin : ∀ x ∈ es, x.start ∈ q'.heap.map (·.start) := by
          intro x hx'
          obtain ⟨y, y1, y2⟩ := List.mem_map.1 (i4 x hx').2
          obtain ⟨b1, b2, b3⟩ := (s3.win y y1).key
          obtain ⟨z, z1, z2⟩ := List.mem_map.1 (hq'.all (keyOf y) b3 (s3.new y y1))
          obtain ⟨c1, _, _⟩ := (hq'.win z z1).key
          refine List.mem_map.2 ⟨z, z1, ?_⟩
          rw [← y2, c1, b1, z2]
        refine ⟨e :: es, rfl, ?_, ?_, ?_, k3, hq.new e hmem, hbest, i5⟩
        · simp only [List.length_cons, i2, s4, hlen]; omega
        · rw [List.map_cons, List.nodup_cons]
          refine ⟨?_, i3⟩
          intro hm
          obtain ⟨x, x1, x2⟩ := List.mem_map.1 hm
          have := hin x x1
          rw [x2] at this
          exact (List.nodup_cons.1 hnd).1 this
        · intro x hx'
          rcases List.mem_cons.1 hx' with rfl | hx'
          · exact ⟨hw, List.mem_map.2 ⟨x, hmem, rfl⟩⟩
          · refine ⟨(i4 x hx').1, ?_⟩
            obtain ⟨z, z1, z2⟩ := List.mem_map.1 (hin x hx')
            exact List.mem_map.2 ⟨z, p4.mem_iff.1 (by simp [z1]), z2⟩

/-- The choice: as many windows as are asked for, if there are as many matches, the best first. -/
theorem choose_spec {len : Int} {ms : List Mt} (hf : Fit len ms) (num : Nat) :
    ∃ es, choose len num ms = .ok es ∧ es.length = min num ms.length ∧ (es.map (·.start)).Nodup ∧ (∀ e ∈ es, IsWin len ms e) ∧
      BestFirst len (ms.map hitOf) [] (es.map keyOf) := by
  obtain ⟨q, new, c1, c2, c3, c4, c5⟩ := candLoop_spec hf ms.length 0 0 0 (PQ.new ms.length) (by omega) (by omega) (by omega)
    (by simp [sumR]) (by intro k m m' h1 h2; omega) (inv_new exLt _)
  unfold choose
  rw [c1, Res.ok_bind]
  simp only [PQ.new, List.append_nil] at c3
  have hnl : new.length = ms.length := by have := congrArg List.length c4; simpa using this
  have hwin : ∀ e ∈ new, IsWin len ms e := by
    intro e he
    obtain ⟨s, t, a1, a2, a3, _⟩ := c5 e he
    exact ⟨s, t, a1, a2, a3⟩
  have hexact : ∀ e ∈ new, e.score = Spec.worth (ms.map hitOf) [] (keyOf e) := by
    intro e he
    obtain ⟨s, t, a1, a2, a3, a4⟩ := c5 e he
    have h1 := a3.order
    have h2 := a3.there
    simp only [List.length_map] at h1 h2
    have := (after_start ms).worth h1 h2
    unfold keyOf
    rw [a4, this, a1, a2]
    rfl
  have hq : QueueOf len ms [] new := by
    refine ⟨hwin, fun e he => by rw [hexact e he]; exact Int.le_refl _, by simp, ?_, ?_⟩
    · rw [c4]
      rw [List.nodup_iff_pairwise_ne, List.pairwise_map]
      exact (List.nodup_iff_pairwise_ne.1 List.nodup_range').imp (fun h e => h (by omega))
    · intro w hw _
      have h1 := hw.order
      have h2 := hw.there
      simp only [List.length_map] at h2
      have : ((w.1 : Nat) : Int) ∈ new.map (·.start) := by
        rw [c4]
        exact List.mem_map.2 ⟨w.1, by simp; omega, rfl⟩
      obtain ⟨e, e1, e2⟩ := List.mem_map.1 this
      refine List.mem_map.2 ⟨e, e1, ?_⟩
      obtain ⟨s, t, a1, a2, a3, _⟩ := c5 e e1
      have hs : s = w.1 := by omega
      subst hs
      have := IsWindow.unique hf a3 (show IsWindow len (ms.map hitOf) (w.1, w.2) from hw)
      unfold keyOf
      rw [a1, a2, this]
      rfl
  have hq' := hq.perm c3
  obtain ⟨es, p1, p2, p3, p4, p5⟩ := pickLoop_spec hf.score num [] ms q (after_start ms) c2 hq' (by
    intro t r e
    unfold exact
    rw [decide_eq_true_eq]
    exact hexact t (c3.mem_iff.1 (by rw [e]; simp)))
  exact ⟨es, p1, by rw [p2, c3.length_eq, hnl], p3, fun e he => (p4 e he).1, p5⟩

end Ferret.Excerpt
