import Verif.Lemmas.Span

/-! The spans of a `near` query, from the lists of the spans of its clauses. -/

namespace Ferret.Span

open Ferret.Spec (SpLe SpLex Proper)

/-! ### The next document of all clauses -/

/-- Every clause has a span in document `d`. -/
def common (Ks : List (List Sp)) (d : Int) : Bool := Ks.all fun K => K.any fun x => decide (x.doc = d)

/-- The first document in which every clause has a span, and the spans from there on. -/
def align (Ks : List (List Sp)) : Option (Int × List (List Sp)) :=
  match Ks with
  | [] => none
  | K :: Ks => (K.find? fun x => common (K :: Ks) x.doc).map fun x => (x.doc, (K :: Ks).map (List.dropWhile (docLt x.doc)))

theorem common_iff {Ks : List (List Sp)} {d : Int} : common Ks d = true ↔ ∀ K ∈ Ks, ∃ x ∈ K, x.doc = d := by
  simp [common, List.all_eq_true, List.any_eq_true]

theorem find_least {K : List Sp} (ho : Ord K) {p : Int → Bool} {x : Sp} (h : K.find? (fun x => p x.doc) = some x) :
    p x.doc = true ∧ ∀ y ∈ K, p y.doc = true → x.doc ≤ y.doc := by
  induction K with
  | nil => cases h
  | cons z K ih =>
    by_cases hz : p z.doc = true
    · rw [List.find?_cons_of_pos (p := fun x : Sp => p x.doc) hz] at h
      cases h
      refine ⟨hz, fun y hy _ => ?_⟩
      rcases List.mem_cons.1 hy with rfl | hy
      · exact Int.le_refl _
      · have := (List.pairwise_cons.1 ho.1).1 y hy
        unfold SpLe at this; omega
    · rw [List.find?_cons_of_neg (p := fun x : Sp => p x.doc) hz] at h
      obtain ⟨h1, h2⟩ := ih (ho.sub (List.sublist_cons_self _ _)) h
      refine ⟨h1, fun y hy hp => ?_⟩
      rcases List.mem_cons.1 hy with rfl | hy
      · exact absurd hp hz
      · exact h2 y hy hp

theorem align_some {Ks : List (List Sp)} (ho : ∀ K ∈ Ks, Ord K) {d : Int} {Ks' : List (List Sp)} : align Ks = some (d, Ks') ↔
    Ks ≠ [] ∧ common Ks d = true ∧ (∀ d', common Ks d' = true → d ≤ d') ∧ Ks' = Ks.map (List.dropWhile (docLt d)) := by
  cases Ks with
  | nil => simp [align]
  | cons K Ks =>
    have hoK := ho K (List.mem_cons_self ..)
    simp only [align, Option.map_eq_some_iff, Prod.mk.injEq]
    constructor
    · rintro ⟨x, h1, h2, h3⟩
      obtain ⟨h4, h5⟩ := find_least hoK (p := common (K :: Ks)) h1
      subst h2
      refine ⟨by simp, h4, fun d' hd' => ?_, h3.symm⟩
      obtain ⟨y, hy, rfl⟩ := common_iff.1 hd' K (List.mem_cons_self ..)
      exact h5 y hy hd'
    · rintro ⟨_, h1, h2, h3⟩
      obtain ⟨y, hy, rfl⟩ := common_iff.1 h1 K (List.mem_cons_self ..)
      cases hf : K.find? fun x => common (K :: Ks) x.doc with
      | none =>
        rw [List.find?_eq_none] at hf
        exact absurd h1 (hf y hy)
      | some x =>
        obtain ⟨h4, h5⟩ := find_least hoK (p := common (K :: Ks)) hf
        have : x.doc = y.doc := Int.le_antisymm (h5 y hy h1) (h2 _ h4)
        exact ⟨x, rfl, this, by rw [h3, this]⟩

theorem align_none {Ks : List (List Sp)} (hne : Ks ≠ []) : align Ks = none ↔ ∀ d, common Ks d = false := by
  cases Ks with
  | nil => exact absurd rfl hne
  | cons K Ks =>
    simp only [align, Option.map_eq_none_iff, List.find?_eq_none]
    constructor
    · intro h d
      cases hc : common (K :: Ks) d with
      | false => rfl
      | true =>
        obtain ⟨y, hy, rfl⟩ := common_iff.1 hc K (List.mem_cons_self ..)
        exact absurd hc (h y hy)
    · intro h x _
      simp [h]

/-- What matters is where the clauses have spans in common. -/
theorem align_congr {Ks Cs : List (List Sp)} (ho : ∀ K ∈ Ks, Ord K) (ho' : ∀ K ∈ Cs, Ord K) (hl : Ks.length = Cs.length)
    (h : ∀ d, common Ks d = common Cs d)
    (h2 : ∀ d, common Ks d = true → Ks.map (List.dropWhile (docLt d)) = Cs.map (List.dropWhile (docLt d))) : align Ks = align Cs := by
  by_cases hne : Ks = []
  · subst hne
    have : Cs = [] := List.length_eq_zero_iff.1 hl.symm
    rw [this]
  · have hne' : Cs ≠ [] := by
      rintro rfl
      exact hne (List.length_eq_zero_iff.1 hl)
    cases ha : align Ks with
    | none =>
      rw [align_none hne] at ha
      exact ((align_none hne').2 fun d => by rw [← h]; exact ha d).symm
    | some p =>
      obtain ⟨d, Ks'⟩ := p
      rw [align_some ho] at ha
      obtain ⟨_, g1, g2, g3⟩ := ha
      refine ((align_some ho').2 ⟨hne', by rw [← h]; exact g1, fun d' hd' => g2 d' (by rw [h]; exact hd'), ?_⟩).symm
      rw [g3, h2 d g1]

theorem dropWhile_dropWhile {t d : Int} (h : t ≤ d) (K : List Sp) : (K.dropWhile (docLt t)).dropWhile (docLt d) = K.dropWhile (docLt d) := by
  induction K with
  | nil => rfl
  | cons x K ih =>
    by_cases hx : x.doc < t
    · rw [List.dropWhile_cons_of_pos (p := docLt t) (by simpa [docLt] using hx), ih,
        List.dropWhile_cons_of_pos (p := docLt d) (by simp only [docLt, decide_eq_true_eq]; omega)]
    · rw [List.dropWhile_cons_of_neg (p := docLt t) (by simpa [docLt] using hx)]

theorem mem_drop {K : List Sp} (ho : Ord K) (t : Int) (x : Sp) : x ∈ K.dropWhile (docLt t) ↔ x ∈ K ∧ t ≤ x.doc := by
  rw [dropWhile_ord ho, List.mem_filter]
  simp [docLt]

/-- A clause may pass documents before one that all common documents are not before. -/
theorem align_drop {A B : List (List Sp)} {K : List Sp} {t : Int} (ho : ∀ C ∈ A ++ K :: B, Ord C)
    (ht : ∀ d, common (A ++ K :: B) d = true → t ≤ d) : align (A ++ K :: B) = align (A ++ K.dropWhile (docLt t) :: B) := by
  have hK := ho K (by simp)
  have ho' : ∀ C ∈ A ++ K.dropWhile (docLt t) :: B, Ord C := by
    intro C hC
    rcases List.mem_append.1 hC with h | h
    · exact ho C (by simp [h])
    · rcases List.mem_cons.1 h with rfl | h
      · exact hK.sub (List.dropWhile_sublist _)
      · exact ho C (by simp [h])
  refine align_congr ho ho' (by simp) (fun d => ?_) (fun d hd => ?_)
  · rw [Bool.eq_iff_iff]
    constructor
    · intro hd
      have htd := ht d hd
      rw [common_iff] at *
      intro C hC
      rcases List.mem_append.1 hC with h | h
      · exact hd C (by simp [h])
      · rcases List.mem_cons.1 h with rfl | h
        · obtain ⟨x, hx, rfl⟩ := hd K (by simp)
          exact ⟨x, (mem_drop hK t x).2 ⟨hx, htd⟩, rfl⟩
        · exact hd C (by simp [h])
    · intro hd
      rw [common_iff] at *
      intro C hC
      rcases List.mem_append.1 hC with h | h
      · exact hd C (by simp [h])
      · rcases List.mem_cons.1 h with rfl | h
        · obtain ⟨x, hx, rfl⟩ := hd (C.dropWhile (docLt t)) (by simp)
          exact ⟨x, List.dropWhile_subset _ hx, rfl⟩
        · exact hd C (by simp [h])
  · simp only [List.map_append, List.map_cons]
    rw [dropWhile_dropWhile (ht d hd)]

/-- All clauses may. -/
theorem align_dropAll {Ks : List (List Sp)} {t : Int} (ho : ∀ K ∈ Ks, Ord K)
    (ht : ∀ d, common Ks d = true → t ≤ d) : align Ks = align (Ks.map (List.dropWhile (docLt t))) := by
  have ho' : ∀ C ∈ Ks.map (List.dropWhile (docLt t)), Ord C := by
    intro C hC
    obtain ⟨K, hK, rfl⟩ := List.mem_map.1 hC
    exact (ho K hK).sub (List.dropWhile_sublist _)
  refine align_congr ho ho' (by simp) (fun d => ?_) (fun d hd => ?_)
  · rw [Bool.eq_iff_iff]
    constructor
    · intro hd
      have htd := ht d hd
      rw [common_iff] at *
      intro C hC
      obtain ⟨K, hK, rfl⟩ := List.mem_map.1 hC
      obtain ⟨x, hx, rfl⟩ := hd K hK
      exact ⟨x, (mem_drop (ho K hK) t x).2 ⟨hx, htd⟩, rfl⟩
    · intro hd
      rw [common_iff] at *
      intro K hK
      obtain ⟨x, hx, rfl⟩ := hd _ (List.mem_map_of_mem hK)
      exact ⟨x, List.dropWhile_subset _ hx, rfl⟩
  · rw [List.map_map]
    refine List.map_congr_left fun K _ => ?_
    exact (dropWhile_dropWhile (ht d hd) K).symm

/-! ### Steps -/

/-- The number of spans. -/
def size (Ks : List (List Sp)) : Nat := (Ks.map List.length).sum

/-- From the spans that begin in document `d`: perhaps a span to report, and what remains. -/
def Step := Int → List (List Sp) → Option Sp × List (List Sp)

/-- All clauses are at document `d`. -/
structure Al (d : Int) (Ks : List (List Sp)) : Prop where
  ne : Ks ≠ []
  ord : ∀ K ∈ Ks, Ord K
  doc : ∀ K ∈ Ks, ∃ x K', K = x :: K' ∧ x.doc = d

/-- Some spans of document `d` have been dropped from the front. -/
inductive Drops (d : Int) : List (List Sp) → List (List Sp) → Prop where
  | nil : Drops d [] []
  | cons (P : List Sp) {K Ks Ks'} : (∀ x ∈ P, x.doc = d) → Drops d Ks Ks' → Drops d ((P ++ K) :: Ks) (K :: Ks')

theorem Drops.refl (d : Int) : ∀ Ks, Drops d Ks Ks
  | [] => .nil
  | _ :: Ks => .cons [] (by simp) (Drops.refl d Ks)

theorem Drops.length {d : Int} {Ks Ks' : List (List Sp)} (h : Drops d Ks Ks') : Ks'.length = Ks.length := by
  induction h with
  | nil => rfl
  | cons P _ _ ih => simp [ih]

theorem Drops.ord {d : Int} {Ks Ks' : List (List Sp)} (h : Drops d Ks Ks') (ho : ∀ K ∈ Ks, Ord K) : ∀ K ∈ Ks', Ord K := by
  induction h with
  | nil => exact ho
  | cons P _ _ ih =>
    intro K hK
    rcases List.mem_cons.1 hK with rfl | hK
    · exact (ho _ (List.mem_cons_self ..)).sub (List.sublist_append_right _ _)
    · exact ih (fun C hC => ho C (List.mem_cons_of_mem _ hC)) K hK

theorem Drops.drop {d t : Int} {Ks Ks' : List (List Sp)} (h : Drops d Ks Ks') (ht : d < t) :
    Ks'.map (List.dropWhile (docLt t)) = Ks.map (List.dropWhile (docLt t)) := by
  induction h with
  | nil => rfl
  | cons P hP _ ih =>
    simp only [List.map_cons, ih]
    congr 1
    clear ih
    induction P with
    | nil => rfl
    | cons x P ih =>
      rw [List.cons_append, List.dropWhile_cons_of_pos (by
        have := hP x (List.mem_cons_self ..)
        simp only [docLt, decide_eq_true_eq]; omega)]
      exact ih fun y hy => hP y (List.mem_cons_of_mem _ hy)

theorem Drops.common {d d' : Int} {Ks Ks' : List (List Sp)} (h : Drops d Ks Ks') (hc : common Ks' d' = true) : Span.common Ks d' = true := by
  rw [common_iff] at *
  induction h with
  | nil => exact hc
  | cons P _ _ ih =>
    intro K hK
    rcases List.mem_cons.1 hK with rfl | hK
    · obtain ⟨x, hx, e⟩ := hc _ (List.mem_cons_self ..)
      exact ⟨x, List.mem_append_right _ hx, e⟩
    · exact ih (fun C hC => hc C (List.mem_cons_of_mem _ hC)) K hK

structure StepOK (st : Step) : Prop where
  less : ∀ {d Ks}, Al d Ks → size (st d Ks).2 < size Ks
  drops : ∀ {d Ks}, Al d Ks → Drops d Ks (st d Ks).2
  out : ∀ {d Ks x}, Al d Ks → (st d Ks).1 = some x → x.doc = d

def iter (st : Step) : Nat → List (List Sp) → List Sp
  | 0, _ => []
  | f + 1, Ks => match align Ks with
    | none => []
    | some p => (st p.1 p.2).1.toList ++ iter st f (st p.1 p.2).2

/-- The spans found by steps, a document after the other. -/
def near (st : Step) (Ks : List (List Sp)) : List Sp := iter st (size Ks + 1) Ks

theorem al_of_align {Ks Ks' : List (List Sp)} {d : Int} (ho : ∀ K ∈ Ks, Ord K) (h : align Ks = some (d, Ks')) : Al d Ks' := by
  obtain ⟨h1, h2, h3, h4⟩ := (align_some ho).1 h
  subst h4
  refine ⟨by simpa using h1, ?_, ?_⟩
  · intro C hC
    obtain ⟨K, hK, rfl⟩ := List.mem_map.1 hC
    exact (ho K hK).sub (List.dropWhile_sublist _)
  · intro C hC
    obtain ⟨K, hK, rfl⟩ := List.mem_map.1 hC
    obtain ⟨x, hx, rfl⟩ := common_iff.1 h2 K hK
    have hm := (mem_drop (ho K hK) x.doc x).2 ⟨hx, Int.le_refl _⟩
    have hoK := (ho K hK).sub (List.dropWhile_sublist (docLt x.doc))
    cases hc : K.dropWhile (docLt x.doc) with
    | nil => rw [hc] at hm; cases hm
    | cons y K' =>
      rw [hc] at hm hoK
      refine ⟨y, K', rfl, ?_⟩
      have hy : ¬ y.doc < x.doc := by
        have := List.head?_dropWhile_not (docLt x.doc) K
        rw [hc] at this; simpa [docLt] using this
      rcases List.mem_cons.1 hm with h | h
      · rw [h]
      · have := (List.pairwise_cons.1 hoK.1).1 x h
        unfold SpLe at this; omega

theorem size_map_drop (t : Int) (Ks : List (List Sp)) : size (Ks.map (List.dropWhile (docLt t))) ≤ size Ks := by
  induction Ks with
  | nil => exact Nat.le_refl _
  | cons K Ks ih =>
    have := (List.dropWhile_sublist (l := K) (docLt t)).length_le
    simp only [size, List.map_cons, List.sum_cons] at *
    omega

theorem size_align {Ks Ks' : List (List Sp)} {d : Int} (ho : ∀ K ∈ Ks, Ord K) (h : align Ks = some (d, Ks')) : size Ks' ≤ size Ks := by
  obtain ⟨_, _, _, h4⟩ := (align_some ho).1 h
  subst h4; exact size_map_drop d Ks

theorem align_length {Ks Ks' : List (List Sp)} {d : Int} (ho : ∀ K ∈ Ks, Ord K) (h : align Ks = some (d, Ks')) : Ks'.length = Ks.length := by
  obtain ⟨_, _, _, h4⟩ := (align_some ho).1 h
  subst h4; simp

variable {st : Step}

theorem iter_fuel (hst : StepOK st) : ∀ (f f' : Nat) (Ks : List (List Sp)), (∀ K ∈ Ks, Ord K) → size Ks < f → size Ks < f' →
    iter st f Ks = iter st f' Ks
  | 0, _, _, _, h, _ => by omega
  | _ + 1, 0, _, _, _, h => by omega
  | f + 1, f' + 1, Ks, ho, h, h' => by
    unfold iter
    cases ha : align Ks with
    | none => rfl
    | some p =>
      have hal := al_of_align ho (d := p.1) (Ks' := p.2) ha
      have h1 := hst.less hal
      have h2 := size_align ho (d := p.1) (Ks' := p.2) ha
      dsimp only
      rw [iter_fuel hst f f' _ ((hst.drops hal).ord hal.ord) (by omega) (by omega)]

theorem near_eq (hst : StepOK st) {Ks : List (List Sp)} (ho : ∀ K ∈ Ks, Ord K) : near st Ks = match align Ks with
    | none => []
    | some p => (st p.1 p.2).1.toList ++ near st (st p.1 p.2).2 := by
  rw [near, iter]
  cases ha : align Ks with
  | none => rfl
  | some p =>
    have hal := al_of_align ho (d := p.1) (Ks' := p.2) ha
    have h1 := hst.less hal
    have h2 := size_align ho (d := p.1) (Ks' := p.2) ha
    dsimp only
    rw [near, iter_fuel hst (size Ks) (size (st p.1 p.2).2 + 1) _ ((hst.drops hal).ord hal.ord) (by omega) (by omega)]

theorem near_some (hst : StepOK st) {Ks Ks' : List (List Sp)} {d : Int} (ho : ∀ K ∈ Ks, Ord K) (h : align Ks = some (d, Ks')) :
    near st Ks = (st d Ks').1.toList ++ near st (st d Ks').2 := by rw [near_eq hst ho, h]

theorem near_none (hst : StepOK st) {Ks : List (List Sp)} (ho : ∀ K ∈ Ks, Ord K) (h : align Ks = none) : near st Ks = [] := by
  rw [near_eq hst ho, h]

theorem near_congr (hst : StepOK st) {Ks Cs : List (List Sp)} (ho : ∀ K ∈ Ks, Ord K) (ho' : ∀ K ∈ Cs, Ord K) (h : align Ks = align Cs) :
    near st Ks = near st Cs := by rw [near_eq hst ho, near_eq hst ho', h]

/-- Induction along the steps. -/
theorem near_induction (hst : StepOK st) {motive : List (List Sp) → Prop}
    (none_ : ∀ Ks, (∀ K ∈ Ks, Ord K) → align Ks = none → motive Ks)
    (some_ : ∀ Ks d Ks', (∀ K ∈ Ks, Ord K) → align Ks = some (d, Ks') → Al d Ks' → motive (st d Ks').2 → motive Ks) :
    ∀ Ks, (∀ K ∈ Ks, Ord K) → motive Ks := by
  have key : ∀ (n : Nat) (Ks : List (List Sp)), size Ks < n → (∀ K ∈ Ks, Ord K) → motive Ks := by
    intro n
    induction n with
    | zero => intro _ h; omega
    | succ n ih =>
      intro Ks hn ho
      cases ha : align Ks with
      | none => exact none_ Ks ho ha
      | some p =>
        have hal := al_of_align ho (d := p.1) (Ks' := p.2) ha
        have h1 := hst.less hal
        have h2 := size_align ho (d := p.1) (Ks' := p.2) ha
        exact some_ Ks p.1 p.2 ho ha hal (ih _ (by omega) ((hst.drops hal).ord hal.ord))
  intro Ks ho
  exact key (size Ks + 1) Ks (Nat.lt_succ_self _) ho

/-- Spans are reported in common documents. -/
theorem near_common (hst : StepOK st) : ∀ (Ks : List (List Sp)), (∀ K ∈ Ks, Ord K) → ∀ x ∈ near st Ks, common Ks x.doc = true := by
  refine near_induction hst (fun Ks ho ha x hx => ?_) (fun Ks d Ks' ho ha hal ih x hx => ?_)
  · rw [near_none hst ho ha] at hx; cases hx
  · rw [near_some hst ho ha] at hx
    obtain ⟨_, h2, h3, h4⟩ := (align_some ho).1 ha
    rcases List.mem_append.1 hx with hx | hx
    · rw [Option.mem_toList] at hx
      rw [hst.out hal hx]; exact h2
    · have := (hst.drops hal).common (ih x hx)
      rw [h4] at this
      rw [common_iff] at *
      intro K hK
      obtain ⟨y, hy, e⟩ := this _ (List.mem_map_of_mem hK)
      exact ⟨y, List.dropWhile_subset _ hy, e⟩

/-- Dropping documents from what is reported, or from all clauses. -/
theorem near_drop (hst : StepOK st) (t : Int) : ∀ (Ks : List (List Sp)), (∀ K ∈ Ks, Ord K) →
    (near st Ks).dropWhile (docLt t) = near st (Ks.map (List.dropWhile (docLt t))) := by
  have hom : ∀ Ks : List (List Sp), (∀ K ∈ Ks, Ord K) → ∀ K ∈ Ks.map (List.dropWhile (docLt t)), Ord K := by
    intro Ks ho C hC
    obtain ⟨K, hK, rfl⟩ := List.mem_map.1 hC
    exact (ho K hK).sub (List.dropWhile_sublist _)
  refine near_induction hst (fun Ks ho ha => ?_) (fun Ks d Ks' ho ha hal ih => ?_)
  · rw [near_none hst ho ha]
    by_cases hne : Ks = []
    · subst hne; exact (near_none hst (Ks := []) (by simp) rfl).symm
    · refine (near_none hst (hom Ks ho) ?_).symm
      rw [← align_dropAll ho]
      · exact ha
      · intro d hd; rw [(align_none hne).1 ha] at hd; cases hd
  · obtain ⟨h1, h2, h3, h4⟩ := (align_some ho).1 ha
    by_cases hd : d < t
    · rw [near_some hst ho ha]
      have hout : ((st d Ks').1.toList ++ near st (st d Ks').2).dropWhile (docLt t) = (near st (st d Ks').2).dropWhile (docLt t) := by
        cases hx : (st d Ks').1 with
        | none => rfl
        | some x =>
          have := hst.out hal hx
          simp only [Option.toList_some, List.singleton_append]
          rw [List.dropWhile_cons_of_pos (by simp only [docLt, decide_eq_true_eq]; omega)]
      rw [hout, ih, (hst.drops hal).drop hd, h4, List.map_map]
      congr 1
      refine List.map_congr_left fun K _ => ?_
      exact dropWhile_dropWhile (Int.le_of_lt hd) K
    · have hge : ∀ d', common Ks d' = true → t ≤ d' := fun d' hd' => by have := h3 d' hd'; omega
      rw [← near_congr hst ho (hom Ks ho) (align_dropAll ho hge)]
      cases hn : near st Ks with
      | nil => rfl
      | cons x L =>
        rw [List.dropWhile_cons_of_neg]
        have := hge _ (near_common hst Ks ho x (by rw [hn]; exact List.mem_cons_self ..))
        simp only [docLt, decide_eq_true_eq]; omega

theorem size_of_al {d : Int} {Ks : List (List Sp)} (h : Al d Ks) : Ks.length ≤ size Ks := by
  have hd := h.doc
  clear h
  induction Ks with
  | nil => exact Nat.le_refl _
  | cons K Ks ih =>
    obtain ⟨x, K', rfl, _⟩ := hd K (List.mem_cons_self ..)
    have := ih fun C hC => hd C (List.mem_cons_of_mem _ hC)
    simp only [size, List.map_cons, List.sum_cons, List.length_cons] at *
    omega

/-- How many spans there may be. -/
theorem near_length (hst : StepOK st) : ∀ (Ks : List (List Sp)), (∀ K ∈ Ks, Ord K) → near st Ks = [] ∨ (near st Ks).length + Ks.length ≤ size Ks + 1 := by
  refine near_induction hst (fun Ks ho ha => .inl (near_none hst ho ha)) (fun Ks d Ks' ho ha hal ih => ?_)
  right
  rw [near_some hst ho ha, List.length_append]
  have h1 := hst.less hal
  have h2 := size_align ho ha
  have h3 := size_of_al hal
  have h4 := align_length ho ha
  have h5 := (hst.drops hal).length
  have h6 : (st d Ks').1.toList.length ≤ 1 := by cases (st d Ks').1 <;> simp
  rcases ih with ih | ih
  · rw [ih]; simp only [List.length_nil]; omega
  · omega

/-- No span is before document `t`. -/
def Low (t : Int) (Ks : List (List Sp)) : Prop := ∀ K ∈ Ks, ∀ z ∈ K, t ≤ z.doc

theorem Drops.low {d t : Int} {Ks Ks' : List (List Sp)} (h : Drops d Ks Ks') (hl : Low t Ks) : Low t Ks' := by
  induction h with
  | nil => exact hl
  | cons P _ _ ih =>
    intro C hC z hz
    rcases List.mem_cons.1 hC with rfl | hC
    · exact hl _ (List.mem_cons_self ..) z (List.mem_append_right _ hz)
    · exact ih (fun C hC => hl C (List.mem_cons_of_mem _ hC)) C hC z hz

theorem Low.fix {t : Int} {Ks : List (List Sp)} (h : Low t Ks) : Ks.map (List.dropWhile (docLt t)) = Ks := by
  induction Ks with
  | nil => rfl
  | cons K Ks ih =>
    rw [List.map_cons, ih fun C hC => h C (List.mem_cons_of_mem _ hC)]
    congr 1
    cases K with
    | nil => rfl
    | cons x K =>
      rw [List.dropWhile_cons_of_neg]
      have := h _ (List.mem_cons_self ..) x (List.mem_cons_self ..)
      simp only [docLt, decide_eq_true_eq]; omega

theorem Al.low {d : Int} {Ks : List (List Sp)} (h : Al d Ks) : Low d Ks := by
  intro K hK z hz
  obtain ⟨w, K1, rfl, e⟩ := h.doc K hK
  rcases List.mem_cons.1 hz with rfl | hz
  · omega
  · have := (List.pairwise_cons.1 (h.ord _ hK).1).1 z hz
    unfold SpLe at this; omega

theorem low_common {t d : Int} {Ks : List (List Sp)} (h : Low t Ks) (hne : Ks ≠ []) (hc : common Ks d = true) : t ≤ d := by
  obtain ⟨K, hK⟩ := List.exists_mem_of_ne_nil Ks hne
  obtain ⟨x, hx, rfl⟩ := common_iff.1 hc K hK
  exact h K hK x hx

theorem Drops.all {d : Int} {Ks Ks' : List (List Sp)} (h : Drops d Ks Ks') {P : List Sp → Prop} (hP : ∀ {K L}, P K → L.Sublist K → P L)
    (hK : ∀ K ∈ Ks, P K) : ∀ K ∈ Ks', P K := by
  induction h with
  | nil => exact hK
  | cons Q _ _ ih =>
    intro C hC
    rcases List.mem_cons.1 hC with rfl | hC
    · exact hP (hK _ (List.mem_cons_self ..)) (List.sublist_append_right _ _)
    · exact ih (fun C hC => hK C (List.mem_cons_of_mem _ hC)) C hC

theorem map_drop_all {t : Int} {Ks : List (List Sp)} {P : List Sp → Prop} (hP : ∀ {K L}, P K → L.Sublist K → P L)
    (hK : ∀ K ∈ Ks, P K) : ∀ K ∈ Ks.map (List.dropWhile (docLt t)), P K := by
  intro C hC
  obtain ⟨K, h, rfl⟩ := List.mem_map.1 hC
  exact hP (hK K h) (List.dropWhile_sublist _)

/-- What is reported is in some order. -/
theorem near_pairwise (hst : StepOK st) {rel : Sp → Sp → Prop} (P : List Sp → Prop) (hP : ∀ {K L}, P K → L.Sublist K → P L)
    (B : Sp → List (List Sp) → Prop)
    (hdocs : ∀ x y, x.doc < y.doc → rel x y)
    (hsuf : ∀ {x d Ks Ks'}, B x Ks → Drops d Ks Ks' → B x Ks')
    (hnext : ∀ {d Ks x}, Al d Ks → (∀ K ∈ Ks, P K) → (st d Ks).1 = some x → B x (st d Ks).2)
    (hrel : ∀ {x y d Ks}, Al d Ks → x.doc = d → B x Ks → (st d Ks).1 = some y → rel x y) :
    ∀ (Ks : List (List Sp)), (∀ K ∈ Ks, Ord K) → (∀ K ∈ Ks, P K) → (near st Ks).Pairwise rel := by
  have key : ∀ (x : Sp) (Ks : List (List Sp)), (∀ K ∈ Ks, Ord K) → (B x Ks → Low x.doc Ks → ∀ y ∈ near st Ks, rel x y) := by
    intro x
    refine near_induction hst (fun Ks ho ha => ?_) (fun Ks d Ks' ho ha hal ih => ?_)
    · intro _ _ y hy; rw [near_none hst ho ha] at hy; cases hy
    · intro hB hlow y hy
      obtain ⟨h1, h2, h3, h4⟩ := (align_some ho).1 ha
      have hcd := near_common hst Ks ho y hy
      have hdy := low_common hlow h1 hcd
      by_cases hlt : x.doc < y.doc
      · exact hdocs _ _ hlt
      · have h5 := h3 _ hcd
        have h6 := low_common hlow h1 h2
        have hd : x.doc = d := by omega
        have hKs : Ks' = Ks := by rw [h4, ← hd]; exact hlow.fix
        subst hKs
        rw [near_some hst ho ha] at hy
        rcases List.mem_append.1 hy with hy | hy
        · rw [Option.mem_toList] at hy
          exact hrel hal hd hB hy
        · exact ih (hsuf hB (hst.drops hal)) ((hst.drops hal).low hlow) y hy
  refine near_induction hst (fun Ks ho ha hp => ?_) (fun Ks d Ks' ho ha hal ih hp => ?_)
  · rw [near_none hst ho ha]; exact List.Pairwise.nil
  · rw [near_some hst ho ha]
    have hp' : ∀ K ∈ Ks', P K := by
      obtain ⟨_, _, _, h4⟩ := (align_some ho).1 ha
      subst h4; exact map_drop_all hP hp
    have ih := ih ((hst.drops hal).all hP hp')
    cases hx : (st d Ks').1 with
    | none => exact ih
    | some x =>
      simp only [Option.toList_some, List.singleton_append]
      refine List.pairwise_cons.2 ⟨fun y hy => ?_, ih⟩
      have hd := hst.out hal hx
      refine key x _ ((hst.drops hal).ord hal.ord) (hnext hal hp' hx) ((hst.drops hal).low ?_) y hy
      rw [hd]; exact hal.low

end Ferret.Span
