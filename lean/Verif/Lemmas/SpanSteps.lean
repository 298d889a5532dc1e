import Verif.Lemmas.SpanWin

/-! The steps of a `near` query. -/

namespace Ferret.Span

open Ferret.Spec (SpLe SpLex Proper)
open Ferret.Phrase (intMax)

/-! ### In any order -/

def heads (Ks : List (List Sp)) : List Sp := Ks.filterMap List.head?

/-- The window of some spans. -/
def wfold : List Sp → Nat → Window → Window
  | [], _, w => w
  | x :: xs, i, w =>
    let w := if x.stop > w.maxEnd then { w with maxEnd := x.stop } else w
    let w := if x.start < w.minStart then { w with minStart := x.start, min := some i } else w
    wfold xs (i + 1) { w with lengths := w.lengths + (x.stop - x.start) }

def window (xs : List Sp) : Window := wfold xs 0 ⟨0, intMax, 0, none⟩

/-- The sum of the lengths. -/
def lengths (xs : List Sp) : Int := (xs.map fun x => x.stop - x.start).sum

theorem wfold_spec : ∀ (xs : List Sp) (i : Nat) (w : Window),
    (w.maxEnd ≤ (wfold xs i w).maxEnd ∧ (∀ x ∈ xs, x.stop ≤ (wfold xs i w).maxEnd) ∧
      ((wfold xs i w).maxEnd = w.maxEnd ∨ ∃ x ∈ xs, (wfold xs i w).maxEnd = x.stop)) ∧
    ((wfold xs i w).minStart ≤ w.minStart ∧ (∀ x ∈ xs, (wfold xs i w).minStart ≤ x.start) ∧
      ((wfold xs i w).min = w.min ∧ (wfold xs i w).minStart = w.minStart ∨
        ∃ j x, xs[j]? = some x ∧ (wfold xs i w).min = some (i + j) ∧ (wfold xs i w).minStart = x.start)) ∧
    (wfold xs i w).lengths = w.lengths + lengths xs
  | [], i, w => by simp [wfold, lengths]
  | x :: xs, i, w => by
    rw [wfold]
    generalize hb : ({ (if x.start < (if x.stop > w.maxEnd then { w with maxEnd := x.stop } else w).minStart then
          { (if x.stop > w.maxEnd then { w with maxEnd := x.stop } else w) with minStart := x.start, min := some i }
          else (if x.stop > w.maxEnd then { w with maxEnd := x.stop } else w)) with
        lengths := (if x.start < (if x.stop > w.maxEnd then { w with maxEnd := x.stop } else w).minStart then
          { (if x.stop > w.maxEnd then { w with maxEnd := x.stop } else w) with minStart := x.start, min := some i }
          else (if x.stop > w.maxEnd then { w with maxEnd := x.stop } else w)).lengths + (x.stop - x.start) } : Window) = b
    have b1 : b.maxEnd = if x.stop > w.maxEnd then x.stop else w.maxEnd := by
      subst hb
      by_cases a : x.stop > w.maxEnd <;> by_cases b : x.start < w.minStart <;> simp [a, b]
    have b2 : b.minStart = if x.start < w.minStart then x.start else w.minStart := by
      subst hb
      by_cases a : x.stop > w.maxEnd <;> by_cases b : x.start < w.minStart <;> simp [a, b]
    have b3 : b.min = if x.start < w.minStart then some i else w.min := by
      subst hb
      by_cases a : x.stop > w.maxEnd <;> by_cases b : x.start < w.minStart <;> simp [a, b]
    have b4 : b.lengths = w.lengths + (x.stop - x.start) := by
      subst hb
      by_cases a : x.stop > w.maxEnd <;> by_cases b : x.start < w.minStart <;> simp [a, b]
    obtain ⟨⟨h1, h2, h3⟩, ⟨h4, h5, h6⟩, h7⟩ := wfold_spec xs (i + 1) b
    clear hb
    generalize wfold xs (i + 1) b = v at *
    refine ⟨⟨?_, ?_, ?_⟩, ⟨?_, ?_, ?_⟩, ?_⟩
    · split at b1 <;> omega
    · intro y hy
      rcases List.mem_cons.1 hy with rfl | hy
      · split at b1 <;> omega
      · exact h2 y hy
    · rcases h3 with h3 | ⟨y, hy, h3⟩
      · split at b1
        · exact .inr ⟨x, List.mem_cons_self .., h3.trans b1⟩
        · exact .inl (h3.trans b1)
      · exact .inr ⟨y, List.mem_cons_of_mem _ hy, h3⟩
    · split at b2 <;> omega
    · intro y hy
      rcases List.mem_cons.1 hy with rfl | hy
      · split at b2 <;> omega
      · exact h5 y hy
    · rcases h6 with ⟨h6, h8⟩ | ⟨j, y, hy, h6, h8⟩
      · by_cases c : x.start < w.minStart
        · rw [if_pos c] at b2 b3
          exact .inr ⟨0, x, rfl, h6.trans b3, h8.trans b2⟩
        · rw [if_neg c] at b2 b3
          exact .inl ⟨h6.trans b3, h8.trans b2⟩
      · exact .inr ⟨j + 1, y, by simpa using hy, by rw [h6]; congr 1; omega, h8⟩
    · rw [h7, b4]
      simp only [lengths, List.map_cons, List.sum_cons]
      omega

theorem window_spec {xs : List Sp} (hne : xs ≠ []) (hp : ∀ x ∈ xs, Proper x) :
    (∃ m x, xs[m]? = some x ∧ (window xs).min = some m ∧ (window xs).minStart = x.start) ∧
    (∀ x ∈ xs, (window xs).minStart ≤ x.start ∧ x.stop ≤ (window xs).maxEnd) ∧
    (∃ x ∈ xs, (window xs).maxEnd = x.stop) ∧ (window xs).lengths = lengths xs := by
  obtain ⟨⟨h1, h2, h3⟩, ⟨h4, h5, h6⟩, h7⟩ := wfold_spec xs 0 ⟨0, intMax, 0, none⟩
  obtain ⟨y, hy⟩ := List.exists_mem_of_ne_nil xs hne
  have hpy := hp y hy
  refine ⟨?_, fun x hx => ⟨h5 x hx, h2 x hx⟩, ?_, by rw [window, h7]; simp⟩
  · rcases h6 with ⟨h6, h8⟩ | ⟨j, x, hx, h6, h8⟩
    · exfalso
      have := h5 y hy
      rw [h8] at this
      simp only [Proper, intMax] at hpy this
      omega
    · exact ⟨j, x, hx, by rw [window, h6]; simp, h8⟩
  · rcases h3 with h3 | h3
    · exfalso
      have := h2 y hy
      rw [h3] at this
      simp only [Proper] at hpy this
      omega
    · exact h3

/-- The clause `m` goes on. -/
def tailAt : Nat → List (List Sp) → List (List Sp)
  | _, [] => []
  | 0, K :: Ks => K.tail :: Ks
  | m + 1, K :: Ks => K :: tailAt m Ks

theorem tailAt_append (A : List (List Sp)) (K : List Sp) (B : List (List Sp)) : tailAt A.length (A ++ K :: B) = A ++ K.tail :: B := by
  induction A with
  | nil => rfl
  | cons C A ih => simp only [List.length_cons, List.cons_append, tailAt, ih]

def stepU (slop : Int) : Step := fun d Ks =>
  match (window (heads Ks)).min with
  | none => (none, Ks)
  | some m => (if (window (heads Ks)).maxEnd - (window (heads Ks)).minStart - (window (heads Ks)).lengths ≤ slop then
      some ⟨d, (window (heads Ks)).minStart, (window (heads Ks)).maxEnd⟩ else none, tailAt m Ks)

theorem heads_al {d : Int} {Ks : List (List Sp)} (h : Al d Ks) : heads Ks ≠ [] ∧ (∀ x ∈ heads Ks, Proper x ∧ x.doc = d) ∧
    (heads Ks).length = Ks.length ∧ ∀ m x, (heads Ks)[m]? = some x → ∃ A K B, Ks = A ++ (x :: K) :: B ∧ m = A.length := by
  have hd := h.doc
  have ho := h.ord
  have hlen : (heads Ks).length = Ks.length ∧ (∀ x ∈ heads Ks, Proper x ∧ x.doc = d) ∧
      ∀ m x, (heads Ks)[m]? = some x → ∃ A K B, Ks = A ++ (x :: K) :: B ∧ m = A.length := by
    clear h
    induction Ks with
    | nil => simp [heads]
    | cons K Ks ih =>
      obtain ⟨i1, i2, i3⟩ := ih (fun C hC => hd C (List.mem_cons_of_mem _ hC)) (fun C hC => ho C (List.mem_cons_of_mem _ hC))
      obtain ⟨x, K', rfl, e⟩ := hd K (List.mem_cons_self ..)
      have hh : heads ((x :: K') :: Ks) = x :: heads Ks := by simp [heads]
      refine ⟨by rw [hh]; simp [i1], fun y hy => ?_, fun m y hm => ?_⟩
      · rw [hh] at hy
        rcases List.mem_cons.1 hy with rfl | hy
        · exact ⟨(ho _ (List.mem_cons_self ..)).2 y (List.mem_cons_self ..), e⟩
        · exact i2 y hy
      · rw [hh] at hm
        cases m with
        | zero =>
          simp only [List.getElem?_cons_zero, Option.some.injEq] at hm
          subst hm
          exact ⟨[], K', Ks, rfl, rfl⟩
        | succ m =>
          simp only [List.getElem?_cons_succ] at hm
          obtain ⟨A, C, B, e1, e2⟩ := i3 m y hm
          exact ⟨(x :: K') :: A, C, B, by rw [e1]; rfl, by simp [e2]⟩
  refine ⟨?_, hlen.2.1, hlen.1, hlen.2.2⟩
  intro h0
  rw [h0] at hlen
  exact h.ne (List.length_eq_zero_iff.1 hlen.1.symm)

theorem size_append (A B : List (List Sp)) : size (A ++ B) = size A + size B := by simp [size]

theorem size_cons (K : List Sp) (B : List (List Sp)) : size (K :: B) = K.length + size B := by simp [size]

theorem Drops.append {d : Int} {A A' B B' : List (List Sp)} (h : Drops d A A') (g : Drops d B B') : Drops d (A ++ B) (A' ++ B') := by
  induction h with
  | nil => exact g
  | cons P hP _ ih => exact .cons P hP ih

/-- What the step in any order does. -/
theorem stepU_al {slop d : Int} {Ks : List (List Sp)} (h : Al d Ks) : ∃ A x K B, Ks = A ++ (x :: K) :: B ∧ x.doc = d ∧
    (window (heads Ks)).min = some A.length ∧ (window (heads Ks)).minStart = x.start ∧
    stepU slop d Ks = (if (window (heads Ks)).maxEnd - x.start - (window (heads Ks)).lengths ≤ slop then
      some ⟨d, x.start, (window (heads Ks)).maxEnd⟩ else none, A ++ K :: B) := by
  obtain ⟨h1, h2, h3, h4⟩ := heads_al h
  obtain ⟨⟨m, x, g1, g2, g3⟩, _⟩ := window_spec h1 fun x hx => (h2 x hx).1
  obtain ⟨A, K, B, e1, e2⟩ := h4 m x g1
  subst e2
  refine ⟨A, x, K, B, e1, (h2 x (List.mem_of_getElem? g1)).2, g2, g3, ?_⟩
  unfold stepU
  rw [g2, g3]
  have : tailAt A.length Ks = A ++ K :: B := by rw [e1]; exact tailAt_append A (x :: K) B
  dsimp only
  rw [this]

theorem stepU_ok (slop : Int) : StepOK (stepU slop) where
  less := by
    intro d Ks h
    obtain ⟨A, x, K, B, e1, _, _, _, e2⟩ := stepU_al (slop := slop) h
    rw [e2, e1]
    simp only [size_append, size_cons, List.length_cons]
    omega
  drops := by
    intro d Ks h
    obtain ⟨A, x, K, B, e1, e3, _, _, e2⟩ := stepU_al (slop := slop) h
    rw [e2, e1]
    exact (Drops.refl d A).append (.cons [x] (by simpa using e3) (Drops.refl d B))
  out := by
    intro d Ks x h hx
    obtain ⟨A, y, K, B, e1, e3, _, _, e2⟩ := stepU_al (slop := slop) h
    rw [e2] at hx
    dsimp only at hx
    split at hx
    · cases hx; rfl
    · cases hx

/-! ### In order -/

/-- `x` is in the document of `prev`, before it. -/
def ordBefore (prev x : Sp) : Bool := decide (x.doc = prev.doc ∧ (x.start < prev.start ∨ x.start = prev.start ∧ x.stop < prev.stop))

/-- Each clause goes on to the first span that is not before that of the clause before it. -/
def chainL (prev : Sp) (len : Int) : List (List Sp) → List (List Sp) × Option (Sp × Int)
  | [] => ([], some (prev, len))
  | K :: Ks =>
    match K.dropWhile (ordBefore prev) with
    | [] => ([] :: Ks, none)
    | x :: K' =>
      if x.doc ≠ prev.doc then ((x :: K') :: Ks, none)
      else ((x :: K') :: (chainL x (len + (x.stop - x.start)) Ks).1, (chainL x (len + (x.stop - x.start)) Ks).2)

def stepO (slop : Int) : Step := fun _ Ks =>
  match Ks with
  | (y :: K0) :: Kt =>
    match (chainL y (y.stop - y.start) Kt).2 with
    | none => (none, (y :: K0) :: (chainL y (y.stop - y.start) Kt).1)
    | some p => (if p.1.stop - y.start - p.2 ≤ slop then some ⟨p.1.doc, y.start, p.1.stop⟩ else none, K0 :: (chainL y (y.stop - y.start) Kt).1)
  | Ks => (none, Ks)

theorem dropWhile_split (p : Sp → Bool) (K : List Sp) : ∃ P, K = P ++ K.dropWhile p ∧ ∀ x ∈ P, p x = true :=
  ⟨K.takeWhile p, List.takeWhile_append_dropWhile.symm, fun x hx => List.all_eq_true.1 (List.all_takeWhile (p := p) (l := K)) x hx⟩

theorem chainL_spec {d : Int} : ∀ (Kt : List (List Sp)) (prev : Sp) (len : Int), prev.doc = d →
    (∀ K ∈ Kt, ∃ x K', K = x :: K' ∧ x.doc = d) → Drops d Kt (chainL prev len Kt).1 ∧ size (chainL prev len Kt).1 ≤ size Kt ∧
      ((chainL prev len Kt).2 = none → size (chainL prev len Kt).1 < size Kt) ∧ ∀ p, (chainL prev len Kt).2 = some p → p.1.doc = d
  | [], prev, len, hd, _ => ⟨.nil, Nat.le_refl _, (fun h => nomatch h), (fun p h => by cases h; exact hd)⟩
  | K :: Kt, prev, len, hd, hK => by
    obtain ⟨y, K', rfl, hy⟩ := hK K (List.mem_cons_self ..)
    obtain ⟨P, e1, e2⟩ := dropWhile_split (ordBefore prev) (y :: K')
    have hP : ∀ x ∈ P, x.doc = d := fun x hx => by have := e2 x hx; simp only [ordBefore, decide_eq_true_eq] at this; omega
    rw [chainL]
    cases hc : (y :: K').dropWhile (ordBefore prev) with
    | nil =>
      rw [hc] at e1
      dsimp only
      refine ⟨?_, ?_, fun _ => ?_, fun p h => nomatch h⟩
      · have := Drops.cons (K := []) P hP (Drops.refl d Kt)
        rwa [← e1] at this
      · simp only [size_cons, List.length_nil]; omega
      · simp only [size_cons, List.length_nil, List.length_cons]; omega
    | cons x K1 =>
      rw [hc] at e1
      have hlen : (y :: K').length = P.length + (x :: K1).length := by rw [e1, List.length_append]
      dsimp only
      by_cases hx : x.doc = prev.doc
      · rw [if_neg (by simpa using hx)]
        obtain ⟨i1, i2, i3, i4⟩ := chainL_spec Kt x (len + (x.stop - x.start)) (by omega) fun C hC => hK C (List.mem_cons_of_mem _ hC)
        refine ⟨?_, ?_, fun h => ?_, i4⟩
        · have := Drops.cons (K := x :: K1) P hP i1
          rwa [← e1] at this
        · simp only [size_cons] at *; omega
        · have := i3 h
          simp only [size_cons] at *; omega
      · rw [if_pos hx]
        refine ⟨?_, ?_, fun _ => ?_, fun p h => nomatch h⟩
        · have := Drops.cons (K := x :: K1) P hP (Drops.refl d Kt)
          rwa [← e1] at this
        · simp only [size_cons] at *; omega
        · have : 0 < P.length := by
            cases P with
            | nil =>
              simp only [List.nil_append, List.cons.injEq] at e1
              rw [← e1.1, hy, hd] at hx
              exact absurd rfl hx
            | cons _ _ => simp
          simp only [size_cons] at *; omega

theorem stepO_ok (slop : Int) : StepOK (stepO slop) where
  less := by
    intro d Ks h
    cases Ks with
    | nil => exact absurd rfl h.ne
    | cons K Kt =>
      obtain ⟨y, K0, rfl, hy⟩ := h.doc K (List.mem_cons_self ..)
      obtain ⟨h1, h2, h3, h4⟩ := chainL_spec Kt y (y.stop - y.start) hy fun C hC => h.doc C (List.mem_cons_of_mem _ hC)
      unfold stepO
      dsimp only
      cases hc : (chainL y (y.stop - y.start) Kt).2 with
      | none => dsimp only; have := h3 hc; simp only [size_cons]; omega
      | some p => dsimp only; simp only [size_cons, List.length_cons]; omega
  drops := by
    intro d Ks h
    cases Ks with
    | nil => exact absurd rfl h.ne
    | cons K Kt =>
      obtain ⟨y, K0, rfl, hy⟩ := h.doc K (List.mem_cons_self ..)
      obtain ⟨h1, h2, h3, h4⟩ := chainL_spec Kt y (y.stop - y.start) hy fun C hC => h.doc C (List.mem_cons_of_mem _ hC)
      unfold stepO
      dsimp only
      cases hc : (chainL y (y.stop - y.start) Kt).2 with
      | none => exact .cons [] (by simp) h1
      | some p => exact .cons [y] (by simpa using hy) h1
  out := by
    intro d Ks x h hx
    cases Ks with
    | nil => exact absurd rfl h.ne
    | cons K Kt =>
      obtain ⟨y, K0, rfl, hy⟩ := h.doc K (List.mem_cons_self ..)
      obtain ⟨h1, h2, h3, h4⟩ := chainL_spec Kt y (y.stop - y.start) hy fun C hC => h.doc C (List.mem_cons_of_mem _ hC)
      unfold stepO at hx
      dsimp only at hx
      cases hc : (chainL y (y.stop - y.start) Kt).2 with
      | none => rw [hc] at hx; cases hx
      | some p =>
        rw [hc] at hx
        dsimp only at hx
        split at hx
        · cases hx; exact h4 p hc
        · cases hx

end Ferret.Span
