import Verif.Lemmas.Names

/-! C14: segment names and generation names are unambiguous. -/

namespace Ferret.Props
open Ferret Ferret.Spec Ferret.Names

theorem sprintf_ok {n m : Name} (h : sprintf n = .ok m) : n = m := by
  unfold sprintf at h
  split at h
  · exact Res.ok.inj h
  · cases h

/-- **C14, reading back.** For every 64-bit generation the name of the segments file can be built,
and the generation parsed from it is the one written. -/
theorem c14_generation_read_back (gen : Nat) (h : gen < 2 ^ 64) :
    ∃ name p, segfn gen = .ok name ∧ afterLast name = some p ∧ str36ToU64 0 p = gen := by
  obtain ⟨ds, h1, h2, h3, h4, h5⟩ := u64ToStr36_spec nameMax gen h (by decide)
  refine ⟨segmentsFile ++ 95 :: ds, ds, ?_, afterLast_append _ _ (digit_ne_underscore h2), ?_⟩
  · unfold segfn sprintf
    rw [h1, Res.ok_bind, if_pos]
    simp only [List.length_append, List.length_cons, segmentsFile, nameMax, List.length_nil]
    omega
  · have := str36ToU64_spec ds 0 [] h2 (by simp) (by rw [h3]; exact h)
    rw [List.append_nil, h3] at this
    exact this

/-- "segments_1ps" and back. -/
example : segfn 2224 = .ok [115, 101, 103, 109, 101, 110, 116, 115, 95, 49, 112, 115] ∧
    str36ToU64 0 [49, 112, 115] = 2224 ∧ (segfn (2 ^ 64 - 1) >>= fun n => Res.ofOption (afterLast n) >>= fun p => .ok (str36ToU64 0 p)) = .ok (2 ^ 64 - 1) := by
  decide +kernel

/-- The largest of a list of generations, -1 if there are none. -/
def maxGen : List Nat → Int
  | [] => -1
  | g :: gs => max (g : Int) (maxGen gs)

theorem currentGeneration_spec : ∀ (names : List Name) (gens : List Nat) (m : Int), (∀ g ∈ gens, g < 2 ^ 63) →
    (names.filter ((segmentsFile ++ [95]).isPrefixOf)).map Res.ok = gens.map segfn → -1 ≤ m →
    currentGeneration m names = .ok (max m (maxGen gens)) := by
  intro names
  induction names with
  | nil =>
    intro gens m _ h hm
    have : gens = [] := by
      cases gens with
      | nil => rfl
      | cons g gs => simp at h
    subst this
    simp only [currentGeneration, maxGen]
    congr 1
    omega
  | cons n ns ih =>
    intro gens m hg h hm
    simp only [currentGeneration, whichGen]
    by_cases hp : (segmentsFile ++ [95]).isPrefixOf n = true
    · rw [if_pos hp]
      rw [List.filter_cons_of_pos hp] at h
      cases gens with
      | nil => simp at h
      | cons g gs =>
        simp only [List.map_cons, List.cons.injEq] at h
        obtain ⟨name, p, h1, h2, h3⟩ := c14_generation_read_back g (by have := hg g (by simp); omega)
        rw [h1] at h
        have hn := Res.ok.inj h.1
        subst hn
        rw [h2]
        simp only [Res.ofOption, Res.ok_bind, h3]
        have hs : toS 8 g = (g : Int) := by
          unfold toS
          rw [if_pos]
          have := hg g (by simp)
          omega
        rw [hs, ih gs _ (fun x hx => hg x (by simp [hx])) h.2 (by split <;> omega)]
        simp only [maxGen]
        congr 1
        split <;> omega
    · rw [if_neg hp, Res.ok_bind]
      rw [List.filter_cons_of_neg hp] at h
      exact ih gens m hg h hm

/-- **C14, finding the current generation.** Whatever else the directory holds, if the files whose
names begin with "segments_" are those of certain generations, the current generation found is the
largest of them, and -1 if there are none. -/
theorem c14_current_generation (names : List Name) (gens : List Nat) (hg : ∀ g ∈ gens, g < 2 ^ 63)
    (h : (names.filter ((segmentsFile ++ [95]).isPrefixOf)).map Res.ok = gens.map segfn) :
    currentGeneration (-1) names = .ok (maxGen gens) := by
  rw [currentGeneration_spec names gens (-1) hg h (by omega)]
  congr 1
  have : ∀ l, -1 ≤ maxGen l := by
    intro l
    induction l with
    | nil => simp [maxGen]
    | cons g gs ih => simp only [maxGen]; omega
  have := this gens
  omega

/-- "_0.cfs", "segments_a", "segments" and "segments_z": the current one is 35. -/
example : (([[95, 48, 46, 99, 102, 115], [115, 101, 103, 109, 101, 110, 116, 115, 95, 97], segmentsFile,
    [115, 101, 103, 109, 101, 110, 116, 115, 95, 122]] : List Name).filter ((segmentsFile ++ [95]).isPrefixOf)).map Res.ok = [10, 35].map segfn ∧
    maxGen [10, 35] = 35 := by
  decide +kernel

/-- The generations that have a name. -/
def isGen (g : Int) : Prop := -2 ^ 63 ≤ g ∧ g < 2 ^ 63 ∧ g ≠ -1

theorem toU_inj {g g' : Int} (h : isGen g) (h' : isGen g') (e : toU 8 g = toU 8 g') : g = g' := by
  have h1 := (toS_toU 8 g (by unfold isGen at h; omega) (by unfold isGen at h; omega)).1
  have h2 := (toS_toU 8 g' (by unfold isGen at h'; omega) (by unfold isGen at h'; omega)).1
  rw [← h1, ← h2, e]

/-- **C14, distinct names.** Two (base, generation, extension) triples that are given the same file
name are the same; extensions are any strings without an underscore, bases any strings. -/
theorem c14_names_distinct (base base' : Name) (ext ext' : Option Name) (gen gen' : Int) (name : Name)
    (hg : isGen gen) (hg' : isGen gen') (he : ∀ e, ext = some e → (95 : Byte) ∉ e) (he' : ∀ e, ext' = some e → (95 : Byte) ∉ e)
    (h : fnForGeneration base ext gen = .ok (some name)) (h' : fnForGeneration base' ext' gen' = .ok (some name)) :
    base = base' ∧ gen = gen' ∧ ext = ext' := by
  have key : ∀ (b : Name) (e : Option Name) (g : Int), isGen g → (∀ x, e = some x → (95 : Byte) ∉ x) → fnForGeneration b e g = .ok (some name) →
      ∃ ds t, (∀ c ∈ ds, IsDigit c) ∧ value 36 0 ds = toU 8 g ∧ name = b ++ 95 :: (ds ++ t) ∧ (95 : Byte) ∉ t ∧ ((e = none ∧ t = []) ∨ ∃ x, e = some x ∧ t = 46 :: x) := by
    intro b e g hg he h
    unfold fnForGeneration at h
    rw [if_neg hg.2.2] at h
    obtain ⟨ds, h1, h2, h3, -, -⟩ := u64ToStr36_spec nameMax (toU 8 g) (toU_lt 8 g) (by decide)
    rw [h1, Res.ok_bind] at h
    cases e with
    | none =>
      simp only [Res.bind_eq_ok] at h
      obtain ⟨n, hn, h⟩ := h
      have := sprintf_ok hn
      simp only [Res.ok.injEq, Option.some.injEq] at h
      refine ⟨ds, [], h2, h3, by rw [List.append_nil, this, h], by simp, Or.inl ⟨rfl, rfl⟩⟩
    | some x =>
      simp only [Res.bind_eq_ok] at h
      obtain ⟨n, hn, h⟩ := h
      have := sprintf_ok hn
      simp only [Res.ok.injEq, Option.some.injEq] at h
      refine ⟨ds, 46 :: x, h2, h3, by rw [← h, ← this]; simp, ?_, Or.inr ⟨x, rfl, rfl⟩⟩
      simp only [List.mem_cons, not_or]
      exact ⟨by decide, he x rfl⟩
  obtain ⟨ds, t, a1, a2, a3, a4, a5⟩ := key _ _ _ hg he h
  obtain ⟨ds', t', b1, b2, b3, b4, b5⟩ := key _ _ _ hg' he' h'
  have e := a3.symm.trans b3
  obtain ⟨e1, e2⟩ := split_last (by simp only [List.mem_append, not_or]; exact ⟨digit_ne_underscore a1, a4⟩)
    (by simp only [List.mem_append, not_or]; exact ⟨digit_ne_underscore b1, b4⟩) e
  have fin : ds = ds' ∧ ext = ext' := by
    rcases a5 with ⟨x1, x2⟩ | ⟨x, x1, x2⟩ <;> rcases b5 with ⟨y1, y2⟩ | ⟨y, y1, y2⟩ <;> subst x1 x2 y1 y2
    · simp only [List.append_nil] at e2; exact ⟨e2, rfl⟩
    · exfalso
      simp only [List.append_nil] at e2
      exact digit_ne_dot a1 (by rw [e2]; simp)
    · exfalso
      simp only [List.append_nil] at e2
      exact digit_ne_dot b1 (by rw [← e2]; simp)
    · obtain ⟨f1, f2⟩ := split_first (digit_ne_dot a1) (digit_ne_dot b1) e2
      exact ⟨f1, by rw [f2]⟩
  refine ⟨e1, toU_inj hg hg' ?_, fin.2⟩
  rw [← a2, ← b2, fin.1]

/-- Every base of up to 60 bytes with an extension of up to 20 has a name for every generation;
"_3_1.del" is one. -/
example : isGen 1 ∧ fnForGeneration [95, 51] (some [100, 101, 108]) 1 = .ok (some [95, 51, 95, 49, 46, 100, 101, 108]) ∧ (95 : Byte) ∉ ([100, 101, 108] : Name) := by
  refine ⟨by unfold isGen; omega, by decide, by decide⟩

theorem c14_name_exists (base : Name) (ext : Option Name) (gen : Int) (hb : base.length ≤ 60) (he : ∀ e, ext = some e → e.length ≤ 20) (hg : isGen gen) :
    ∃ name, fnForGeneration base ext gen = .ok (some name) := by
  obtain ⟨ds, h1, -, -, -, h5⟩ := u64ToStr36_spec nameMax (toU 8 gen) (toU_lt 8 gen) (by decide)
  unfold fnForGeneration
  rw [if_neg hg.2.2, h1, Res.ok_bind]
  cases ext with
  | none =>
    refine ⟨base ++ 95 :: ds, ?_⟩
    simp only [sprintf]
    rw [if_pos (by simp [nameMax]; omega)]
    rfl
  | some e =>
    have := he e rfl
    refine ⟨base ++ 95 :: ds ++ 46 :: e, ?_⟩
    simp only [sprintf]
    rw [if_pos (by simp [nameMax]; omega)]
    rfl

/-- The name of a norms file is the name with the field number at the end of the extension … -/
theorem c14_norm_name (base ext : Name) (gen : Int) (field : Nat) (hf : field < 2 ^ 31) :
    ∃ d, decimal field = .ok d ∧ fnForGenField base ext gen field = fnForGeneration base (some (ext ++ d)) gen := by
  obtain ⟨d, h1, -, -, -⟩ := decimal_spec field hf
  refine ⟨d, h1, ?_⟩
  unfold fnForGenField fnForGeneration
  by_cases hg : gen = -1
  · rw [if_pos hg, if_pos hg]
  · rw [if_neg hg, if_neg hg]
    obtain ⟨ds, h2, -⟩ := u64ToStr36_spec nameMax (toU 8 gen) (toU_lt 8 gen) (by decide)
    rw [h2, Res.ok_bind, Res.ok_bind, h1, Res.ok_bind]

/-- … and so **distinct (base, generation, field) triples have distinct norm names**, for any
extension that ends in something other than a digit or is empty; "f" and "s" are used. -/
theorem c14_norm_names_distinct (base base' ext ext' : Name) (gen gen' : Int) (field field' : Nat) (name : Name)
    (hg : isGen gen) (hg' : isGen gen') (hf : field < 2 ^ 31) (hf' : field' < 2 ^ 31)
    (he : ∀ c ∈ ext, 97 ≤ c.toNat) (he' : ∀ c ∈ ext', 97 ≤ c.toNat)
    (h : fnForGenField base ext gen field = .ok (some name)) (h' : fnForGenField base' ext' gen' field' = .ok (some name)) :
    base = base' ∧ gen = gen' ∧ ext = ext' ∧ field = field' := by
  obtain ⟨d, d1, d2⟩ := c14_norm_name base ext gen field hf
  obtain ⟨d', d1', d2'⟩ := c14_norm_name base' ext' gen' field' hf'
  rw [d2] at h
  rw [d2'] at h'
  obtain ⟨ds, x1, x2, x3, -⟩ := decimal_spec field hf
  obtain ⟨ds', y1, y2, y3, -⟩ := decimal_spec field' hf'
  rw [d1] at x1
  rw [d1'] at y1
  cases x1
  cases y1
  have nou : ∀ (e dd : Name), (∀ c ∈ e, 97 ≤ c.toNat) → (∀ c ∈ dd, 48 ≤ c.toNat ∧ c.toNat ≤ 57) → ∀ x, some (e ++ dd) = some x → (95 : Byte) ∉ x := by
    intro e dd h1 h2 x hx hm
    cases hx
    rw [List.mem_append] at hm
    have e95 : (95 : Byte).toNat = 95 := rfl
    rcases hm with hm | hm
    · have := h1 _ hm; omega
    · have := h2 _ hm; omega
  obtain ⟨e1, e2, e3⟩ := c14_names_distinct _ _ _ _ _ _ _ hg hg' (nou _ _ he x2) (nou _ _ he' y2) h h'
  have split : ∀ (a b x y : Name), (∀ c ∈ a, 97 ≤ c.toNat) → (∀ c ∈ b, 97 ≤ c.toNat) → (∀ c ∈ x, 48 ≤ c.toNat ∧ c.toNat ≤ 57) → (∀ c ∈ y, 48 ≤ c.toNat ∧ c.toNat ≤ 57) →
      a ++ x = b ++ y → a = b ∧ x = y := by
    intro a
    induction a with
    | nil =>
      intro b x y _ hb hx hy hab
      cases b with
      | nil => exact ⟨rfl, hab⟩
      | cons c cs =>
        have h1 := hb c (by simp)
        have h2 := hx c (by rw [List.nil_append] at hab; rw [hab]; simp)
        omega
    | cons c cs ih =>
      intro b x y ha hb hx hy hab
      cases b with
      | nil =>
        have h1 := ha c (by simp)
        have h2 := hy c (by rw [List.nil_append] at hab; rw [← hab]; simp)
        omega
      | cons c' cs' =>
        simp only [List.cons_append, List.cons.injEq] at hab
        obtain ⟨h1, h2⟩ := ih cs' x y (fun z hz => ha z (by simp [hz])) (fun z hz => hb z (by simp [hz])) hx hy hab.2
        exact ⟨by rw [hab.1, h1], h2⟩
  obtain ⟨s1, s2⟩ := split _ _ _ _ he he' x2 y2 (Option.some.inj e3)
  refine ⟨e1, e2, s1, ?_⟩
  rw [← x3, ← y3, s2]

/-- "_3_1.f12" -/
example : isGen 1 ∧ fnForGenField [95, 51] [102] 1 12 = .ok (some [95, 51, 95, 49, 46, 102, 49, 50]) := by
  refine ⟨by unfold isGen; omega, by decide +kernel⟩

/-- **C14, segment names.** Every 64-bit counter gives a segment name, distinct counters distinct
names. -/
theorem c14_segment_names (c c' : Nat) (h : c < 2 ^ 64) (h' : c' < 2 ^ 64) :
    ∃ n n', newSegment c = .ok n ∧ newSegment c' = .ok n' ∧ (n = n' → c = c') ∧ n.length ≤ 14 := by
  obtain ⟨ds, h1, -, h3, -, h5⟩ := u64ToStr36_spec (nameMax - 1) c h (by decide)
  obtain ⟨ds', h1', -, h3', -, -⟩ := u64ToStr36_spec (nameMax - 1) c' h' (by decide)
  refine ⟨95 :: ds, 95 :: ds', by rw [newSegment, h1]; rfl, by rw [newSegment, h1']; rfl, ?_, by simp; omega⟩
  intro e
  simp only [List.cons.injEq, true_and] at e
  rw [← h3, ← h3', e]

example : newSegment 35 = .ok [95, 122] ∧ newSegment 36 = .ok [95, 49, 48] := by decide +kernel

/-- Names of segments files are distinct for distinct generations. -/
theorem c14_segments_names_distinct (g g' : Nat) (name : Name) (h : g < 2 ^ 64) (h' : g' < 2 ^ 64) (e : segfn g = .ok name) (e' : segfn g' = .ok name) : g = g' := by
  obtain ⟨n, p, h1, h2, h3⟩ := c14_generation_read_back g h
  obtain ⟨n', p', h1', h2', h3'⟩ := c14_generation_read_back g' h'
  rw [h1] at e
  rw [h1'] at e'
  cases e
  cases e'
  rw [h2] at h2'
  cases h2'
  rw [← h3, ← h3']

#print axioms c14_generation_read_back
#print axioms c14_current_generation
#print axioms c14_names_distinct
#print axioms c14_name_exists
#print axioms c14_norm_name
#print axioms c14_norm_names_distinct
#print axioms c14_segment_names
#print axioms c14_segments_names_distinct
end Ferret.Props
