import Verif.Lemmas.SpanNearMove
import Verif.Lemmas.SpanOr
import Verif.Lemmas.SpanMulti

/-! What the spans of a `near` query are. -/

namespace Ferret.Span

open Ferret.Spec

variable {st : Step}

/-! ### One span of each clause -/

theorem pick_append {A B : List (List Sp)} {xa xb : List Sp} (h : Pick A xa) (g : Pick B xb) : Pick (A ++ B) (xa ++ xb) := by
  induction h with
  | nil => exact g
  | cons hx _ ih => exact .cons hx ih

theorem pick_split {A B : List (List Sp)} : ∀ {xs : List Sp}, Pick (A ++ B) xs → ∃ xa xb, xs = xa ++ xb ∧ Pick A xa ∧ Pick B xb := by
  induction A with
  | nil => exact fun {xs} h => ⟨[], xs, rfl, .nil, h⟩
  | cons K A ih =>
    intro xs h
    cases h with
    | cons hx h =>
      obtain ⟨xa, xb, rfl, h1, h2⟩ := ih h
      exact ⟨_ :: xa, xb, rfl, .cons hx h1, h2⟩

theorem pick_length {Ks : List (List Sp)} {xs : List Sp} (h : Pick Ks xs) : xs.length = Ks.length := by
  induction h with
  | nil => rfl
  | cons _ _ ih => simp [ih]

theorem pick_common {Ks : List (List Sp)} {xs : List Sp} {d : Int} (h : Pick Ks xs) (hd : ∀ x ∈ xs, x.doc = d) : common Ks d = true := by
  rw [common_iff]
  induction h with
  | nil => intro K hK; cases hK
  | @cons _ _ x _ hx _ ih =>
    intro C hC
    rcases List.mem_cons.1 hC with rfl | hC
    · exact ⟨_, hx, hd _ (List.mem_cons_self ..)⟩
    · exact ih (fun y hy => hd y (List.mem_cons_of_mem _ hy)) C hC

theorem pick_of_drops {d : Int} {Ks Ks' : List (List Sp)} (h : Drops d Ks Ks') : ∀ {xs : List Sp}, Pick Ks' xs → Pick Ks xs := by
  induction h with
  | nil => exact id
  | cons P _ _ ih =>
    intro xs h
    cases h with
    | cons hx h => exact .cons (List.mem_append_right _ hx) (ih h)

theorem pick_drops {d : Int} {Ks Ks' : List (List Sp)} (h : Drops d Ks Ks') : ∀ {xs : List Sp}, Pick Ks xs → (∀ x ∈ xs, x.doc ≠ d) → Pick Ks' xs := by
  induction h with
  | nil => exact fun h _ => h
  | cons P hP _ ih =>
    intro xs h hd
    cases h with
    | cons hx h =>
      refine .cons ?_ (ih h fun y hy => hd y (List.mem_cons_of_mem _ hy))
      rcases List.mem_append.1 hx with h | h
      · exact absurd (hP _ h) (hd _ (List.mem_cons_self ..))
      · exact h

theorem pick_of_map {t : Int} {Ks : List (List Sp)} : ∀ {xs : List Sp}, Pick (Ks.map (List.dropWhile (docLt t))) xs → Pick Ks xs := by
  induction Ks with
  | nil => exact id
  | cons K Ks ih =>
    intro xs h
    cases h with
    | cons hx h => exact .cons ((List.dropWhile_sublist _).subset hx) (ih h)

theorem pick_map {t : Int} {Ks : List (List Sp)} (ho : ∀ K ∈ Ks, Ord K) : ∀ {xs : List Sp}, Pick Ks xs → (∀ x ∈ xs, t ≤ x.doc) →
    Pick (Ks.map (List.dropWhile (docLt t))) xs := by
  induction Ks with
  | nil => exact fun h _ => h
  | cons K Ks ih =>
    intro xs h hd
    cases h with
    | cons hx h =>
      exact .cons ((mem_drop (ho K (List.mem_cons_self ..)) t _).2 ⟨hx, hd _ (List.mem_cons_self ..)⟩)
        (ih (fun C hC => ho C (List.mem_cons_of_mem _ hC)) h fun y hy => hd y (List.mem_cons_of_mem _ hy))

theorem pick_last {Ks : List (List Sp)} {xs : List Sp} (h : Pick Ks xs) : ∀ {x K}, xs.getLast? = some x → Ks.getLast? = some K → x ∈ K := by
  induction h with
  | nil => intro x K h; cases h
  | @cons K0 Ks x0 xs hx h ih =>
    intro x K h1 h2
    cases h with
    | nil =>
      cases h1; cases h2
      exact hx
    | cons hy h => exact ih (by simpa using h1) (by simpa using h2)

/-! ### In any order -/

theorem heads_pick {d : Int} {Ks : List (List Sp)} (h : ∀ K ∈ Ks, ∃ x K', K = x :: K' ∧ x.doc = d) : Pick Ks (heads Ks) := by
  induction Ks with
  | nil => exact .nil
  | cons K Ks ih =>
    obtain ⟨x, K', rfl, _⟩ := h K (List.mem_cons_self ..)
    exact .cons (List.mem_cons_self ..) (ih fun C hC => h C (List.mem_cons_of_mem _ hC))

theorem heads_mem {Ks : List (List Sp)} {h : Sp} : h ∈ heads Ks ↔ ∃ K, (h :: K) ∈ Ks := by
  unfold heads
  rw [List.mem_filterMap]
  constructor
  · rintro ⟨K, h1, h2⟩
    cases K with
    | nil => cases h2
    | cons x K => cases h2; exact ⟨K, h1⟩
  · rintro ⟨K, h1⟩
    exact ⟨_, h1, rfl⟩

/-- What the step in any order reports. -/
theorem stepU_out {slop d : Int} {Ks : List (List Sp)} {z : Sp} (h : Al d Ks) (hz : (stepU slop d Ks).1 = some z) :
    z.doc = d ∧ Near slop false z (heads Ks) := by
  obtain ⟨A, x, K, B, e1, e2, e3, e4, e5⟩ := stepU_al (slop := slop) h
  obtain ⟨h1, h2, _, _⟩ := heads_al h
  obtain ⟨_, g2, g3, g4⟩ := window_spec h1 fun x hx => (h2 x hx).1
  rw [e5] at hz
  dsimp only at hz
  split at hz
  · rename_i hfit
    cases hz
    refine ⟨rfl, ⟨?_, ?_, ?_⟩, ?_⟩
    · intro y hy
      have := g2 y hy
      rw [e4] at this
      exact ⟨(h2 y hy).2, this⟩
    · exact ⟨x, heads_mem.2 ⟨K, by rw [e1]; simp⟩, rfl⟩
    · obtain ⟨y, hy, e⟩ := g3
      exact ⟨y, hy, e.symm⟩
    · unfold gap
      rw [g4] at hfit
      exact hfit
  · cases hz

theorem al_head {d : Int} {Ks : List (List Sp)} (h : Al d Ks) {K : List Sp} (hK : K ∈ Ks) : ∃ x ∈ heads Ks, x ∈ K ∧ x.doc = d ∧ ∀ y ∈ K, SpLe x y := by
  obtain ⟨x, K', rfl, hx⟩ := h.doc K hK
  refine ⟨x, heads_mem.2 ⟨K', hK⟩, List.mem_cons_self .., hx, fun y hy => ?_⟩
  rcases List.mem_cons.1 hy with rfl | hy
  · exact .inr ⟨rfl, Int.le_refl _⟩
  · exact (List.pairwise_cons.1 (h.ord _ hK).1).1 y hy

theorem drops_mem {d : Int} {Ks Ks' : List (List Sp)} (h : Drops d Ks Ks') : (∀ K' ∈ Ks', ∃ K ∈ Ks, K' ⊆ K) ∧ ∀ K ∈ Ks, ∃ K' ∈ Ks', K' ⊆ K := by
  induction h with
  | nil => exact ⟨(fun _ h => nomatch h), (fun _ h => nomatch h)⟩
  | @cons P K Ks Ks' _ _ ih =>
    constructor
    · intro C hC
      rcases List.mem_cons.1 hC with rfl | hC
      · exact ⟨_, List.mem_cons_self .., fun x hx => List.mem_append_right _ hx⟩
      · obtain ⟨C', h1, h2⟩ := ih.1 C hC
        exact ⟨C', List.mem_cons_of_mem _ h1, h2⟩
    · intro C hC
      rcases List.mem_cons.1 hC with rfl | hC
      · exact ⟨_, List.mem_cons_self .., fun x hx => List.mem_append_right _ hx⟩
      · obtain ⟨C', h1, h2⟩ := ih.2 C hC
        exact ⟨C', List.mem_cons_of_mem _ h1, h2⟩

theorem drops_ends {d : Int} {Ks Ks' : List (List Sp)} (h : Drops d Ks Ks') :
    (∀ K', Ks'.head? = some K' → ∃ K, Ks.head? = some K ∧ K' ⊆ K) ∧ ∀ K', Ks'.getLast? = some K' → ∃ K, Ks.getLast? = some K ∧ K' ⊆ K := by
  constructor
  · intro C hC
    cases h with
    | nil => cases hC
    | cons P _ _ => cases hC; exact ⟨_, rfl, fun x hx => List.mem_append_right _ hx⟩
  · induction h with
    | nil => intro C hC; cases hC
    | cons P _ hd ih =>
      intro C hC
      cases hd with
      | nil => cases hC; exact ⟨_, rfl, fun x hx => List.mem_append_right _ hx⟩
      | cons Q hQ hd =>
        obtain ⟨K, h1, h2⟩ := ih C (by simpa using hC)
        exact ⟨K, by simpa using h1, h2⟩

/-- Spans ascend in start and end. -/
def Stair (L : List Sp) : Prop := L.Pairwise fun a b => a.doc < b.doc ∨ a.doc = b.doc ∧ a.start ≤ b.start ∧ a.stop ≤ b.stop

theorem Stair.sub {K L : List Sp} (h : Stair K) (s : L.Sublist K) : Stair L := h.sublist s

theorem stepU_sorted (slop : Int) {Ks : List (List Sp)} (ho : ∀ K ∈ Ks, Ord K) : (near (stepU slop) Ks).Pairwise SpLe := by
  refine near_pairwise (stepU_ok slop) (fun _ => True) (fun _ _ => trivial) (fun z Ks => ∀ K ∈ Ks, ∀ y ∈ K, y.doc = z.doc → z.start ≤ y.start) (fun x y h => .inl h) ?_ ?_ ?_ Ks ho (fun _ _ => trivial)
  · intro x d Ks Ks' h hd K' hK' y hy
    obtain ⟨K, h1, h2⟩ := (drops_mem hd).1 K' hK'
    exact h K h1 y (h2 hy)
  · intro d Ks z h _ hz
    obtain ⟨h1, h2⟩ := stepU_out h hz
    intro K' hK' y hy hyd
    obtain ⟨K, h3, h4⟩ := (drops_mem ((stepU_ok slop).drops h)).1 K' hK'
    obtain ⟨x, h5, h6, h7, h8⟩ := al_head h h3
    have h9 := h8 y (h4 hy)
    have h10 := (h2.1.1 x h5).2.1
    unfold SpLe at h9; omega
  · intro x y d Ks h hd hB hy
    obtain ⟨h1, h2⟩ := stepU_out h hy
    obtain ⟨w, h3, h4⟩ := h2.1.2.1
    obtain ⟨K, h5⟩ := heads_mem.1 h3
    have := hB _ h5 w (List.mem_cons_self ..) (by rw [(h2.1.1 w h3).1, h1, hd])
    exact .inr ⟨by rw [h1, hd], by omega⟩

theorem stepU_stair (slop : Int) {Ks : List (List Sp)} (ho : ∀ K ∈ Ks, Ord K) (hs : ∀ K ∈ Ks, Stair K) :
    (near (stepU slop) Ks).Pairwise fun a b => a.doc < b.doc ∨ a.doc = b.doc ∧ a.stop ≤ b.stop := by
  refine near_pairwise (stepU_ok slop) Stair Stair.sub (fun z Ks => ∃ K ∈ Ks, ∀ y ∈ K, y.doc = z.doc → z.stop ≤ y.stop) (fun x y h => .inl h) ?_ ?_ ?_ Ks ho hs
  · rintro x d Ks Ks' ⟨K, h1, h2⟩ hd
    obtain ⟨K', h3, h4⟩ := (drops_mem hd).2 K h1
    exact ⟨K', h3, fun y hy => h2 y (h4 hy)⟩
  · intro d Ks z h hst hz
    obtain ⟨h1, h2⟩ := stepU_out h hz
    obtain ⟨w, h3, h4⟩ := h2.1.2.2
    obtain ⟨K, h5⟩ := heads_mem.1 h3
    obtain ⟨K', h6, h7⟩ := (drops_mem ((stepU_ok slop).drops h)).2 _ h5
    refine ⟨K', h6, fun y hy hyd => ?_⟩
    rcases List.mem_cons.1 (h7 hy) with rfl | h8
    · omega
    · have := (List.pairwise_cons.1 (hst _ h5)).1 y h8
      have := (h2.1.1 w h3).1
      omega
  · rintro x y d Ks h hd ⟨K, hK, hB⟩ hy
    obtain ⟨h1, h2⟩ := stepU_out h hy
    obtain ⟨w, h3, h4, h5, _⟩ := al_head h hK
    have h6 := hB w h4 (by rw [h5, hd])
    have h7 := (h2.1.1 w h3).2.2
    exact .inr ⟨by rw [h1, hd], by omega⟩

/-! ### In order -/

theorem chainL_sem {d : Int} : ∀ (Kt : List (List Sp)) (prev : Sp) (len : Int) (p : Sp × Int), prev.doc = d → (chainL prev len Kt).2 = some p →
    (∀ K ∈ Kt, ∀ x ∈ K, d ≤ x.doc) →
    ∃ hs, Pick Kt hs ∧ (∀ K', (chainL prev len Kt).1.getLast? = some K' → ∃ K'', K' = p.1 :: K'') ∧ (∀ h ∈ hs, h.doc = d) ∧ (prev :: hs).Pairwise SpLex ∧ (prev :: hs).getLast? = some p.1 ∧ p.2 = len + lengths hs
  | [], prev, len, p, hd, hp, _ => by
    cases hp
    exact ⟨[], .nil, (fun _ h => nomatch h), (fun _ h => nomatch h), by simp, rfl, by simp [lengths]⟩
  | K :: Kt, prev, len, p, hd, hp, hlow => by
    rw [chainL] at hp ⊢
    have hsub := List.dropWhile_sublist (l := K) (ordBefore prev)
    cases hc : K.dropWhile (ordBefore prev) with
    | nil => rw [hc] at hp; cases hp
    | cons x K' =>
      rw [hc] at hp hsub
      have hnot : ordBefore prev x = false := by
        have := List.head?_dropWhile_not (ordBefore prev) K
        rw [hc] at this
        simpa using this
      dsimp only at hp ⊢
      by_cases hx : x.doc = prev.doc
      · rw [if_neg (by simpa using hx)] at hp ⊢
        dsimp only at hp ⊢
        obtain ⟨hs, h1, h2, h3, h4, h5, h6⟩ := chainL_sem (d := d) Kt x _ p (by omega) hp fun C hC => hlow C (List.mem_cons_of_mem _ hC)
        have hpx : SpLex prev x := by
          simp only [ordBefore, decide_eq_false_iff_not] at hnot
          unfold SpLex; omega
        refine ⟨x :: hs, .cons (hsub.subset (List.mem_cons_self ..)) h1, ?_, ?_, ?_, by simpa using h5, ?_⟩
        · intro C hC
          cases Kt with
          | nil =>
            cases hp; cases hC
            exact ⟨K', rfl⟩
          | cons K1 Kt =>
            refine h2 C ?_
            rw [List.getLast?_cons] at hC
            have hne : (chainL x (len + (x.stop - x.start)) (K1 :: Kt)).1 ≠ [] := by
              cases h1 with
              | cons _ _ =>
                intro e
                have : (chainL x (len + (x.stop - x.start)) (K1 :: Kt)).1.length = 0 := by rw [e]; rfl
                rw [chainL] at this
                split at this
                · simp at this
                · split at this <;> simp at this
            cases hl : (chainL x (len + (x.stop - x.start)) (K1 :: Kt)).1.getLast? with
            | none => exact absurd (List.getLast?_eq_none_iff.1 hl) hne
            | some w => rw [hl] at hC; exact hC
        · intro h hh
          rcases List.mem_cons.1 hh with rfl | hh
          · omega
          · exact h3 h hh
        · refine List.pairwise_cons.2 ⟨fun y hy => ?_, h4⟩
          rcases List.mem_cons.1 hy with rfl | hy
          · exact hpx
          · exact lex_trans hpx ((List.pairwise_cons.1 h4).1 y hy)
        · rw [h6]; simp only [lengths, List.map_cons, List.sum_cons]; omega
      · rw [if_pos hx] at hp; cases hp

/-- What the step in order reports. -/
theorem stepO_out {slop d : Int} {Ks : List (List Sp)} {z : Sp} (h : Al d Ks) (hz : (stepO slop d Ks).1 = some z) :
    z.doc = d ∧ ∃ xs, Pick Ks xs ∧ ((∀ K ∈ Ks, Stair K) → ∀ K, (stepO slop d Ks).2.getLast? = some K → ∀ y ∈ K, y.doc = z.doc → z.stop ≤ y.stop) ∧ Near slop true z xs := by
  cases Ks with
  | nil => exact absurd rfl h.ne
  | cons K Kt =>
    obtain ⟨y, K0, rfl, hy⟩ := h.doc K (List.mem_cons_self ..)
    unfold stepO at hz ⊢
    dsimp only at hz ⊢
    cases hc : (chainL y (y.stop - y.start) Kt).2 with
    | none => rw [hc] at hz; cases hz
    | some p =>
      rw [hc] at hz
      dsimp only at hz
      split at hz
      · rename_i hfit
        cases hz
        obtain ⟨hs, h1, h2, h3, h4, h5, h6⟩ := chainL_sem Kt y _ p hy hc fun K hK => h.low K (List.mem_cons_of_mem _ hK)
        have hall : ∀ x ∈ y :: hs, x.doc = d := by
          intro x hx
          rcases List.mem_cons.1 hx with rfl | hx
          · exact hy
          · exact h3 x hx
        have hpd : p.1.doc = d := hall _ (List.mem_of_getLast? h5)
        have hlast : (∀ K ∈ (y :: K0) :: Kt, Stair K) → ∀ K, (K0 :: (chainL y (y.stop - y.start) Kt).1).getLast? = some K → ∀ w ∈ K, w.doc = p.1.doc → p.1.stop ≤ w.stop := by
          intro hst K hK w hw hwd
          obtain ⟨q1, _, _, _⟩ := chainL_spec Kt y (y.stop - y.start) hy fun C hC => h.doc C (List.mem_cons_of_mem _ hC)
          rw [List.getLast?_cons] at hK
          cases hl : (chainL y (y.stop - y.start) Kt).1.getLast? with
          | none =>
            have hnil := List.getLast?_eq_none_iff.1 hl
            have hlen := q1.length
            rw [hnil] at hlen
            have hKt : Kt = [] := List.length_eq_zero_iff.1 hlen.symm
            subst hKt
            rw [hl] at hK
            cases hK
            cases hc
            have := (List.pairwise_cons.1 (hst _ (List.mem_cons_self ..))).1 w hw
            dsimp only at *
            omega
          | some C =>
            rw [hl] at hK
            cases hK
            obtain ⟨K'', rfl⟩ := h2 _ hl
            have hstC : Stair (p.1 :: K'') := q1.all Stair.sub (fun C hC => hst C (List.mem_cons_of_mem _ hC)) _ (List.mem_of_getLast? hl)
            rcases List.mem_cons.1 hw with rfl | hw
            · exact Int.le_refl _
            · have := (List.pairwise_cons.1 hstC).1 w hw
              omega
        refine ⟨hpd, y :: hs, .cons (List.mem_cons_self ..) h1, hlast, ⟨?_, h4, ⟨y, rfl, rfl⟩, p.1, h5, rfl⟩, ?_⟩
        · intro x hx
          rw [hall x hx]
          exact hpd.symm
        · unfold gap
          simp only [List.map_cons, List.sum_cons]
          rw [h6] at hfit
          unfold lengths at hfit
          omega
      · cases hz

theorem stepO_sorted (slop : Int) {Ks : List (List Sp)} (ho : ∀ K ∈ Ks, Ord K) : (near (stepO slop) Ks).Pairwise SpLe := by
  refine near_pairwise (stepO_ok slop) (fun _ => True) (fun _ _ => trivial) (fun z Ks => ∀ K, Ks.head? = some K → ∀ y ∈ K, y.doc = z.doc → z.start ≤ y.start)
    (fun x y h => .inl h) ?_ ?_ ?_ Ks ho (fun _ _ => trivial)
  · intro x d Ks Ks' h hd K' hK' y hy
    obtain ⟨K, h1, h2⟩ := (drops_ends hd).1 K' hK'
    exact h K h1 y (h2 hy)
  · intro d Ks z h _ hz
    have hal := h
    obtain ⟨h1, xs, h2, _, h3⟩ := stepO_out h hz
    intro K' hK' y hy hyd
    obtain ⟨K, h4, h5⟩ := (drops_ends ((stepO_ok slop).drops h)).1 K' hK'
    obtain ⟨x, h6, h7⟩ := h3.1.2.2.1
    cases Ks with
    | nil => cases h4
    | cons C Ks =>
      cases h4
      obtain ⟨w, K0, rfl, hw⟩ := h.doc _ (List.mem_cons_self ..)
      -- the first of the reported spans is the head of the first clause
      have hx : z.start = w.start := by
        unfold stepO at hz
        dsimp only at hz
        split at hz
        · cases hz
        · split at hz
          · cases hz; rfl
          · cases hz
      have h9 : SpLe w y := by
        rcases List.mem_cons.1 (h5 hy) with rfl | h
        · exact .inr ⟨rfl, Int.le_refl _⟩
        · exact (List.pairwise_cons.1 (hal.ord _ (List.mem_cons_self ..)).1).1 y h
      unfold SpLe at h9; omega
  · intro x y d Ks h hd hB hy
    obtain ⟨h1, xs, h2, _, h3⟩ := stepO_out h hy
    obtain ⟨w, h4, h5⟩ := h3.1.2.2.1
    cases h2 with
    | nil => cases h4
    | cons hw h2 =>
      cases h4
      have := hB _ rfl w hw (by rw [h3.1.1 w (List.mem_cons_self ..), h1, hd])
      exact .inr ⟨by rw [h1, hd], by omega⟩

theorem stepO_stair (slop : Int) {Ks : List (List Sp)} (ho : ∀ K ∈ Ks, Ord K) (hs : ∀ K ∈ Ks, Stair K) :
    (near (stepO slop) Ks).Pairwise fun a b => a.doc < b.doc ∨ a.doc = b.doc ∧ a.stop ≤ b.stop := by
  refine near_pairwise (stepO_ok slop) Stair Stair.sub (fun z Ks => ∀ K, Ks.getLast? = some K → ∀ y ∈ K, y.doc = z.doc → z.stop ≤ y.stop) (fun x y h => .inl h) ?_ ?_ ?_ Ks ho hs
  · intro x d Ks Ks' h hd K' hK' y hy
    obtain ⟨K, h1, h2⟩ := (drops_ends hd).2 K' hK'
    exact h K h1 y (h2 hy)
  · intro d Ks z h hst hz
    obtain ⟨h1, xs, h2, h4, h3⟩ := stepO_out h hz
    exact h4 hst
  · intro x y d Ks h hd hB hy
    obtain ⟨h1, xs, h2, _, h3⟩ := stepO_out h hy
    obtain ⟨w, h4, h5⟩ := h3.1.2.2.2
    cases hl : Ks.getLast? with
    | none => exact absurd (List.getLast?_eq_none_iff.1 hl) h.ne
    | some K =>
      have := hB K hl w (pick_last h2 h4 hl) (by rw [h3.1.1 w (List.mem_of_getLast? h4), h1, hd])
      exact .inr ⟨by rw [h1, hd], by omega⟩

/-! ### Both -/

theorem near_sorted (inOrder : Bool) (slop : Int) {Ks : List (List Sp)} (ho : ∀ K ∈ Ks, Ord K) : (near (stepOf inOrder slop) Ks).Pairwise SpLe := by
  cases inOrder
  · exact stepU_sorted slop ho
  · exact stepO_sorted slop ho

theorem pairwise_and {α : Type} {r s : α → α → Prop} : ∀ {l : List α}, l.Pairwise r → l.Pairwise s → l.Pairwise fun a b => r a b ∧ s a b
  | [], _, _ => .nil
  | a :: l, h, g => by
    rw [List.pairwise_cons] at *
    exact ⟨fun b hb => ⟨h.1 b hb, g.1 b hb⟩, pairwise_and h.2 g.2⟩

theorem near_stair (inOrder : Bool) (slop : Int) {Ks : List (List Sp)} (ho : ∀ K ∈ Ks, Ord K) (hs : ∀ K ∈ Ks, Stair K) : Stair (near (stepOf inOrder slop) Ks) := by
  have h1 := near_sorted inOrder slop ho
  have h2 : (near (stepOf inOrder slop) Ks).Pairwise fun a b => a.doc < b.doc ∨ a.doc = b.doc ∧ a.stop ≤ b.stop := by
    cases inOrder
    · exact stepU_stair slop ho hs
    · exact stepO_stair slop ho hs
  refine (pairwise_and h1 h2).imp fun {a b} h => ?_
  unfold SpLe at h; omega

theorem stepOf_out {inOrder : Bool} {slop d : Int} {Ks : List (List Sp)} {z : Sp} (h : Al d Ks) (hz : (stepOf inOrder slop d Ks).1 = some z) :
    ∃ xs, Pick Ks xs ∧ Near slop inOrder z xs := by
  cases inOrder
  · exact ⟨_, heads_pick h.doc, (stepU_out h hz).2⟩
  · obtain ⟨_, xs, h1, _, h2⟩ := stepO_out h hz
    exact ⟨xs, h1, h2⟩

/-- Each span is the text of near spans of the clauses. -/
theorem near_sound (inOrder : Bool) (slop : Int) : ∀ (Ks : List (List Sp)), (∀ K ∈ Ks, Ord K) → ∀ z ∈ near (stepOf inOrder slop) Ks, ∃ xs, Pick Ks xs ∧ Near slop inOrder z xs := by
  have hst := stepOf_ok inOrder slop
  refine near_induction hst (fun Ks ho ha z hz => ?_) (fun Ks d Ks' ho ha hal ih z hz => ?_)
  · rw [near_none hst ho ha] at hz; cases hz
  · rw [near_some hst ho ha] at hz
    have key : ∃ xs, Pick Ks' xs ∧ Near slop inOrder z xs := by
      rcases List.mem_append.1 hz with hz | hz
      · rw [Option.mem_toList] at hz
        exact stepOf_out hal hz
      · obtain ⟨xs, h1, h2⟩ := ih z hz
        exact ⟨xs, pick_of_drops (hst.drops hal) h1, h2⟩
    obtain ⟨xs, h1, h2⟩ := key
    obtain ⟨_, _, _, h4⟩ := (align_some ho).1 ha
    subst h4
    exact ⟨xs, pick_of_map h1, h2⟩

theorem pick_mem {Ks : List (List Sp)} {xs : List Sp} (h : Pick Ks xs) : ∀ x ∈ xs, ∃ K ∈ Ks, x ∈ K := by
  induction h with
  | nil => intro x hx; cases hx
  | @cons K _ _ _ hx _ ih =>
    intro y hy
    rcases List.mem_cons.1 hy with rfl | hy
    · exact ⟨K, List.mem_cons_self .., hx⟩
    · obtain ⟨C, h1, h2⟩ := ih y hy
      exact ⟨C, List.mem_cons_of_mem _ h1, h2⟩

theorem near_proper (inOrder : Bool) (slop : Int) {Ks : List (List Sp)} (ho : ∀ K ∈ Ks, Ord K) : ∀ z ∈ near (stepOf inOrder slop) Ks, Proper z := by
  intro z hz
  obtain ⟨xs, h1, h2⟩ := near_sound inOrder slop Ks ho z hz
  have hp : ∀ x ∈ xs, Proper x := fun x hx => by
    obtain ⟨K, hK, hm⟩ := pick_mem h1 x hx
    exact (ho K hK).2 x hm
  cases inOrder
  · obtain ⟨⟨h3, ⟨a, h4, h5⟩, b, h6, h7⟩, _⟩ := h2
    have := h3 a h4
    have := hp a h4
    unfold Proper at *; omega
  · obtain ⟨⟨h3, h8, ⟨a, h4, h5⟩, b, h6, h7⟩, _⟩ := h2
    cases xs with
    | nil => cases h4
    | cons w xs =>
      have hwa : w = a := by simpa using h4
      subst hwa
      have ha := hp w (List.mem_cons_self ..)
      have hd := h3 w (List.mem_cons_self ..)
      have hbm := List.mem_of_getLast? h6
      have hb := hp b hbm
      have hbd := h3 b hbm
      rcases List.mem_cons.1 hbm with rfl | hm
      · unfold Proper at *; omega
      · have := (List.pairwise_cons.1 h8).1 b hm
        unfold Proper SpLex at *; omega

theorem near_ord (inOrder : Bool) (slop : Int) {Ks : List (List Sp)} (ho : ∀ K ∈ Ks, Ord K) : Ord (near (stepOf inOrder slop) Ks) :=
  ⟨near_sorted inOrder slop ho, near_proper inOrder slop ho⟩

/-! ### All near positions are covered -/

theorem Single.sub {K L : List Sp} (h : Single K) (s : L.Sublist K) : Single L := fun x hx => h x (s.subset hx)

theorem lengths_single {Ks : List (List Sp)} (hs : ∀ K ∈ Ks, Single K) {xs : List Sp} (h : Pick Ks xs) : (xs.map fun x => x.stop - x.start).sum = Ks.length := by
  induction h with
  | nil => rfl
  | cons hx _ ih =>
    have := ih fun C hC => hs C (List.mem_cons_of_mem _ hC)
    have := hs _ (List.mem_cons_self ..) _ hx
    simp only [List.map_cons, List.sum_cons, List.length_cons]
    omega

theorem heads_le {d : Int} {Ks : List (List Sp)} (ho : ∀ K ∈ Ks, Ord K) {xs : List Sp} (h : Pick Ks xs) (hd : ∀ x ∈ xs, x.doc = d) : ∀ h ∈ heads Ks, h.doc = d → ∃ x ∈ xs, h.start ≤ x.start := by
  induction h with
  | nil => intro h hh; cases hh
  | @cons K Ks x xs hx h ih =>
    intro w hw hwd
    have ih := ih (fun C hC => ho C (List.mem_cons_of_mem _ hC)) (fun y hy => hd y (List.mem_cons_of_mem _ hy))
    cases K with
    | nil => cases hx
    | cons a K =>
      have : heads ((a :: K) :: Ks) = a :: heads Ks := rfl
      rw [this] at hw
      rcases List.mem_cons.1 hw with rfl | hw
      · refine ⟨x, List.mem_cons_self .., ?_⟩
        rcases List.mem_cons.1 hx with rfl | hx
        · exact Int.le_refl _
        · have h1 := (List.pairwise_cons.1 (ho _ (List.mem_cons_self ..)).1).1 x hx
          have h2 := hd x (List.mem_cons_self ..)
          unfold SpLe at h1; omega
      · obtain ⟨y, h1, h2⟩ := ih w hw hwd
        exact ⟨y, List.mem_cons_of_mem _ h1, h2⟩

/-- The step in any order reports the pick, or it stays a pick. -/
theorem stepU_covers {slop d : Int} {Ks : List (List Sp)} (h : Al d Ks) (hs : ∀ K ∈ Ks, Single K) {z : Sp} {xs : List Sp} (hp : Pick Ks xs)
    (hn : Near slop false z xs) (hd : z.doc = d) :
    Pick (stepU slop d Ks).2 xs ∨ ∃ w, (stepU slop d Ks).1 = some w ∧ w.doc = z.doc ∧ z.start ≤ w.start ∧ w.stop ≤ z.stop := by
  obtain ⟨A, x, K, B, e1, e2, e3, e4, e5⟩ := stepU_al (slop := slop) h
  obtain ⟨h1, h2, _, _⟩ := heads_al h
  obtain ⟨_, g2, g3, g4⟩ := window_spec h1 fun x hx => (h2 x hx).1
  rw [e5]
  dsimp only
  have hp' := hp
  rw [e1] at hp'
  obtain ⟨xa, xb, rfl, p1, p2⟩ := pick_split hp'
  cases p2 with
  | @cons _ _ v vs hv p2 =>
    rcases List.mem_cons.1 hv with rfl | hv
    · right
      have hmax : (window (heads Ks)).maxEnd ≤ z.stop := by
        obtain ⟨w, h3, h4⟩ := g3
        obtain ⟨K1, h5⟩ := heads_mem.1 h3
        have h6 := hs _ h5 w (List.mem_cons_self ..)
        obtain ⟨y, h7, h8⟩ := heads_le h.ord hp (d := d) (fun x hx => by rw [(hn.1.1 x hx).1, hd]) w h3 (h2 w h3).2
        obtain ⟨K2, h9, h10⟩ := pick_mem hp y h7
        have h11 := hs _ h9 y h10
        have h12 := (hn.1.1 y h7).2.2
        omega
      have hstart := (hn.1.1 v (by simp)).2.1
      have hlen : (window (heads Ks)).lengths = Ks.length := by rw [g4]; exact lengths_single hs (heads_pick h.doc)
      have hgap := hn.2
      unfold gap at hgap
      rw [lengths_single hs hp] at hgap
      rw [if_pos (by omega)]
      exact ⟨_, rfl, by rw [hd], hstart, hmax⟩
    · left
      exact pick_append p1 (.cons hv p2)

theorem chainL_covers {d : Int} : ∀ (Kt : List (List Sp)) (prev p0 : Sp) (len : Int) (xs : List Sp), prev.doc = d → p0.doc = d → prev.start ≤ p0.start →
    prev.stop = prev.start + 1 → p0.stop = p0.start + 1 →
    (∀ K ∈ Kt, Ord K) → (∀ K ∈ Kt, Single K) → (∀ K ∈ Kt, ∀ x ∈ K, d ≤ x.doc) → Pick Kt xs → (∀ x ∈ xs, x.doc = d) → (p0 :: xs).Pairwise SpLex →
    ∃ p, (chainL prev len Kt).2 = some p ∧ Pick (chainL prev len Kt).1 xs ∧ p.2 = len + Kt.length ∧ ∀ l, (p0 :: xs).getLast? = some l → p.1.stop ≤ l.stop
  | [], prev, p0, len, xs, hd, hd0, hle, hu, hu0, _, _, _, hp, _, _ => by
    cases hp
    refine ⟨_, rfl, .nil, by simp, fun l hl => ?_⟩
    have : l = p0 := by simpa using hl.symm
    subst this
    show prev.stop ≤ l.stop
    omega
  | K :: Kt, prev, p0, len, _, hd, hd0, hle, hu, hu0, ho, hs, hlow, .cons (x := v) (xs := vs) hv hp, hxd, hlex => by
    have hvd := hxd v (List.mem_cons_self ..)
    have hvu := hs K (List.mem_cons_self ..) v hv
    have hpv := (List.pairwise_cons.1 hlex).1 v (List.mem_cons_self ..)
    have hnb : ordBefore prev v = false := by
      simp only [ordBefore, decide_eq_false_iff_not]
      unfold SpLex at hpv; omega
    have hvm : v ∈ K.dropWhile (ordBefore prev) := by
      obtain ⟨P, e1, e2⟩ := dropWhile_split (ordBefore prev) K
      rw [e1] at hv
      rcases List.mem_append.1 hv with h | h
      · have := e2 v h
        rw [hnb] at this; cases this
      · exact h
    have hsub := List.dropWhile_sublist (l := K) (ordBefore prev)
    rw [chainL]
    cases hc : K.dropWhile (ordBefore prev) with
    | nil => rw [hc] at hvm; cases hvm
    | cons x K' =>
      rw [hc] at hvm hsub
      have hxK := hsub.subset (List.mem_cons_self ..)
      have hxle : SpLe x v := by
        rcases List.mem_cons.1 hvm with rfl | h
        · exact .inr ⟨rfl, Int.le_refl _⟩
        · exact (List.pairwise_cons.1 ((ho K (List.mem_cons_self ..)).1.sublist hsub)).1 v h
      have hxd' : x.doc = d := by
        have := hlow K (List.mem_cons_self ..) x hxK
        unfold SpLe at hxle; omega
      have hxu := hs K (List.mem_cons_self ..) x hxK
      dsimp only
      rw [if_neg (by rw [hxd', hd]; simp)]
      obtain ⟨p, i1, i2, i3, i4⟩ := chainL_covers Kt x v (len + (x.stop - x.start)) vs hxd' hvd (by unfold SpLe at hxle; omega) hxu hvu
        (fun C hC => ho C (List.mem_cons_of_mem _ hC)) (fun C hC => hs C (List.mem_cons_of_mem _ hC)) (fun C hC => hlow C (List.mem_cons_of_mem _ hC)) hp
        (fun y hy => hxd y (List.mem_cons_of_mem _ hy)) (List.pairwise_cons.1 hlex).2
      refine ⟨p, i1, .cons hvm i2, ?_, fun l hl => i4 l (by simpa using hl)⟩
      rw [i3, List.length_cons]; omega

theorem stepO_covers {slop d : Int} {Ks : List (List Sp)} (h : Al d Ks) (hs : ∀ K ∈ Ks, Single K) {z : Sp} {xs : List Sp} (hp : Pick Ks xs)
    (hn : Near slop true z xs) (hd : z.doc = d) :
    Pick (stepO slop d Ks).2 xs ∨ ∃ w, (stepO slop d Ks).1 = some w ∧ w.doc = z.doc ∧ z.start ≤ w.start ∧ w.stop ≤ z.stop := by
  cases Ks with
  | nil => exact absurd rfl h.ne
  | cons K Kt =>
    obtain ⟨y, K0, rfl, hy⟩ := h.doc K (List.mem_cons_self ..)
    have hlenxs := lengths_single hs hp
    cases hp with
    | @cons _ _ v vs hv hp =>
      have hdv : v.doc = d := by rw [hn.1.1 v (List.mem_cons_self ..), hd]
      have hle : y.start ≤ v.start := by
        rcases List.mem_cons.1 hv with rfl | hv
        · exact Int.le_refl _
        · have := (List.pairwise_cons.1 (h.ord _ (List.mem_cons_self ..)).1).1 v hv
          unfold SpLe at this; omega
      have hyu := hs _ (List.mem_cons_self ..) y (List.mem_cons_self ..)
      obtain ⟨p, i1, i2, i3, i4⟩ := chainL_covers Kt y v (y.stop - y.start) vs hy hdv hle hyu
        (hs _ (List.mem_cons_self ..) v hv) (fun C hC => h.ord C (List.mem_cons_of_mem _ hC)) (fun C hC => hs C (List.mem_cons_of_mem _ hC))
        (fun C hC => h.low C (List.mem_cons_of_mem _ hC)) hp (fun x hx => by rw [hn.1.1 x (List.mem_cons_of_mem _ hx), hd]) hn.1.2.1
      unfold stepO
      dsimp only
      rw [i1]
      dsimp only
      rcases List.mem_cons.1 hv with rfl | hv
      · right
        obtain ⟨a, ha1, ha2⟩ := hn.1.2.2.1
        cases ha1
        obtain ⟨l, hl1, hl2⟩ := hn.1.2.2.2
        have h5 := i4 l hl1
        have hgap := hn.2
        unfold gap at hgap
        rw [hlenxs, List.length_cons] at hgap
        rw [if_pos (by omega)]
        have hpd := (chainL_spec Kt v (v.stop - v.start) hy fun C hC => h.doc C (List.mem_cons_of_mem _ hC)).2.2.2 p i1
        refine ⟨_, rfl, ?_, ?_, ?_⟩
        · dsimp only; omega
        · dsimp only; omega
        · dsimp only; omega
      · left
        exact .cons hv i2

theorem near_complete (inOrder : Bool) (slop : Int) {z : Sp} {xs : List Sp} (hn : Near slop inOrder z xs) : ∀ (Ks : List (List Sp)), (∀ K ∈ Ks, Ord K) →
    (∀ K ∈ Ks, Single K) → Pick Ks xs → ∃ w ∈ near (stepOf inOrder slop) Ks, w.doc = z.doc ∧ z.start ≤ w.start ∧ w.stop ≤ z.stop := by
  have hst := stepOf_ok inOrder slop
  have hzd : ∀ x ∈ xs, x.doc = z.doc := by
    cases inOrder
    · exact fun x hx => (hn.1.1 x hx).1
    · exact hn.1.1
  have hxne : xs ≠ [] := by
    rintro rfl
    cases inOrder
    · obtain ⟨a, ha, _⟩ := hn.1.2.1
      cases ha
    · obtain ⟨a, ha, _⟩ := hn.1.2.2.1
      cases ha
  refine near_induction hst (fun Ks ho ha hs hp => ?_) (fun Ks d Ks' ho ha hal ih hs hp => ?_)
  · have hne : Ks ≠ [] := by
      rintro rfl
      cases hp
      exact hxne rfl
    have := (align_none hne).1 ha z.doc
    rw [pick_common hp hzd] at this
    cases this
  · rw [near_some hst ho ha]
    obtain ⟨_, h2, h3, h4⟩ := (align_some ho).1 ha
    have hdz := h3 _ (pick_common hp hzd)
    have hp' : Pick Ks' xs := by
      subst h4
      exact pick_map ho hp fun x hx => by rw [hzd x hx]; exact hdz
    have hs' : ∀ K ∈ Ks', Single K := by subst h4; exact map_drop_all Single.sub hs
    have ih := ih ((hst.drops hal).all Single.sub hs')
    by_cases hlt : d < z.doc
    · obtain ⟨w, h5, h6⟩ := ih (pick_drops (hst.drops hal) hp' fun x hx => by rw [hzd x hx]; omega)
      exact ⟨w, List.mem_append_right _ h5, h6⟩
    · have hd : z.doc = d := by omega
      have hcov : Pick (stepOf inOrder slop d Ks').2 xs ∨ ∃ w, (stepOf inOrder slop d Ks').1 = some w ∧ w.doc = z.doc ∧ z.start ≤ w.start ∧ w.stop ≤ z.stop := by
        cases inOrder
        · exact stepU_covers hal hs' hp' hn hd
        · exact stepO_covers hal hs' hp' hn hd
      rcases hcov with h5 | ⟨w, h5, h6⟩
      · obtain ⟨w, h5, h6⟩ := ih h5
        exact ⟨w, List.mem_append_right _ h5, h6⟩
      · exact ⟨w, List.mem_append_left _ (by rw [Option.mem_toList]; exact h5), h6⟩

theorem near_spans (inOrder : Bool) (slop : Int) {Ks : List (List Sp)} (ho : ∀ K ∈ Ks, Ord K) : NearSpans slop inOrder Ks (near (stepOf inOrder slop) Ks) :=
  ⟨near_sound inOrder slop Ks ho, fun hs _ _ hp hn => near_complete inOrder slop hn Ks ho hs hp⟩

end Ferret.Span
