import Verif.Lemmas.MultiMapperDfa

/-!
C53: a multi-mapper replaces the patterns given to it and copies everything else.
-/

namespace Ferret.Props
open Ferret Ferret.MultiMap Ferret.Spec

/-- Mappings given one after the other to a new mapper. -/
def addMappings : Mapper → List (List Byte × List Byte) → Res Mapper
  | s, [] => .ok s
  | s, m :: ms => s.add m.1 m.2 >>= fun s => addMappings s ms

/-- A mapper with these mappings, compiled. -/
def mapperOf (maps : List (List Byte × List Byte)) : Res Mapper :=
  addMappings Mapper.new maps >>= fun s => s.compile

def asMapping (p : List Byte × List Byte) : Mapping := ⟨p.1, p.2⟩

theorem addMappings_ok (s : Mapper) (maps : List (List Byte × List Byte)) (h : ∀ m ∈ maps, m.1 ≠ []) :
    ∃ d, addMappings s maps = .ok ⟨s.maps ++ maps.map asMapping, d⟩ := by
  induction maps generalizing s with
  | nil => exact ⟨s.dfa, by simp [addMappings]⟩
  | cons m ms ih =>
    obtain ⟨d, hd⟩ := ih ⟨s.maps ++ [⟨m.1, m.2⟩], none⟩ (fun m' hm => h m' (List.mem_cons_of_mem _ hm))
    refine ⟨d, ?_⟩
    simp only [addMappings, Mapper.add]
    rw [if_neg (h m (by simp)), Res.ok_bind, hd]
    simp [asMapping]

theorem infix_concat_of {p u : List Byte} {c : Byte} (h : p <:+: u ++ [c]) : p <:+: u ∨ p <:+ u ++ [c] := by
  obtain ⟨x, y, e⟩ := h
  rcases List.eq_nil_or_concat y with rfl | ⟨y', c', rfl⟩
  · exact .inr ⟨x, by simpa using e⟩
  · left
    rw [List.concat_eq_append, ← List.append_assoc] at e
    exact ⟨x, y', (List.append_inj_left' e rfl)⟩

theorem mapLoop_mapped {n : Nfa} {maps : List (List Byte × List Byte)} (hne : ∀ m ∈ maps, m.1 ≠ [])
    {dfa : List DState} (hL : Laid n (maps.map asMapping).reverse) (hB : Built n (alphabet (maps.map asMapping)) dfa)
    (capa : Nat) (rest : List Byte) : ∀ (st : Nat) (c0 done u : List Byte),
      (∀ x y, Mapped maps x y → Mapped maps (c0 ++ x) (done ++ y)) → (∀ m ∈ maps, ¬ m.1 <:+: u) →
      At (maps.map asMapping).reverse dfa st u → (done ++ u).length ≤ capa - 1 →
      ∃ a b o, rest = a ++ b ∧ Mapped maps (c0 ++ u ++ a) o ∧
        mapLoop dfa capa rest st (done ++ u) = .ok (o.take (capa - 1)) ∧
        (b = [] ∨ (o.take (capa - 1)).length = capa - 1) := by
  have hne' : ∀ m ∈ maps.map asMapping, m.pattern ≠ [] := by
    intro m hm
    obtain ⟨p, hp, rfl⟩ := List.mem_map.1 hm
    exact hne p hp
  induction rest with
  | nil =>
    intro st c0 done u hc hu _ hlen
    refine ⟨[], [], done ++ u, rfl, ?_, ?_, .inl rfl⟩
    · rw [List.append_nil]
      exact hc _ _ (.same u hu)
    · rw [List.take_of_length_le hlen]; rfl
  | cons s rest ih =>
    intro st c0 done u hc hu hat hlen
    by_cases hcap : (done ++ u).length + 1 < capa
    · obtain ⟨d, hd, hs⟩ := hat
      obtain ⟨e, he, hse⟩ := at_step hL hB hd hs s
      have hloop : mapLoop dfa capa (s :: rest) st (done ++ u) =
          match e.mapping with
          | some m =>
            if (done ++ u).length < e.longest - 1 then .ub else
            mapLoop dfa capa rest 0 (((done ++ u).take ((done ++ u).length - (e.longest - 1))) ++
              m.take (capa - 1 - ((done ++ u).take ((done ++ u).length - (e.longest - 1))).length))
          | none => mapLoop dfa capa rest (d.go s) (done ++ u ++ [s]) := by
        simp only [mapLoop, hcap, if_true, hd, he, Res.ofOption, Res.ok_bind]
        rfl
      rcases at_match hne' hL hB (List.mem_of_getElem? he) hse with ⟨hnone, hno⟩ | ⟨A, m, B, hAB, h1, h2, h3, h4, h5⟩
      · rw [hloop, hnone]
        dsimp only
        have hu' : ∀ m ∈ maps, ¬ m.1 <:+: u ++ [s] := by
          intro m hm hin
          rcases infix_concat_of hin with h | h
          · exact hu m hm h
          · exact hno (asMapping m) (List.mem_map_of_mem hm) h
        obtain ⟨a, b, o, rfl, h1, h2, h3⟩ := ih (d.go s) c0 done (u ++ [s]) hc hu' ⟨e, he, hse⟩ (by
          simp at hcap ⊢; omega)
        refine ⟨s :: a, b, o, rfl, by simpa using h1, ?_, h3⟩
        rw [List.append_assoc]
        exact h2
      · obtain ⟨u', hu'⟩ := h3
        have hlen1 : u'.length + m.pattern.length = u.length + 1 := by
          have := congrArg List.length hu'; simpa using this
        have hmap : maps = A.map (fun m => (m.pattern, m.replacement)) ++ (m.pattern, m.replacement) ::
            B.map (fun m => (m.pattern, m.replacement)) := by
          have := congrArg (List.map (fun m : Mapping => (m.pattern, m.replacement))) hAB
          simpa [asMapping, Function.comp_def] using this
        have hpre : u = (u' ++ m.pattern).dropLast := by rw [hu']; simp
        have hstep : ∀ x y, Mapped maps x y → Mapped maps (c0 ++ (u ++ s :: x)) (done ++ (u' ++ (m.replacement ++ y))) := by
          intro x y hxy
          have := Mapped.replace (maps := maps) u' m.pattern m.replacement x y
            ⟨_, _, hmap, by
              intro m' hm'
              obtain ⟨m'', h6, rfl⟩ := List.mem_map.1 hm'
              exact h5 m'' h6⟩
            (by rw [← hpre]; exact hu)
            (by
              intro m' hm' hsuf
              exact h4 (asMapping m') (List.mem_map_of_mem hm') (by rw [← hu']; exact hsuf))
            hxy
          have := hc _ _ this
          rw [hu'] at this
          simpa using this
        have hkeep : (done ++ u).take ((done ++ u).length - (m.pattern.length - 1)) = done ++ u' := by
          have h0 : 0 < m.pattern.length := List.length_pos_iff.2 (hne' m (by rw [hAB]; simp))
          have e1 : (done ++ u).length - (m.pattern.length - 1) = (done ++ u').length := by
            simp only [List.length_append]; omega
          rw [e1]
          have e2 : done ++ u ++ [s] = done ++ u' ++ m.pattern := by
            rw [List.append_assoc, ← hu', List.append_assoc]
          have e3 : (done ++ u ++ [s]).take (done ++ u').length = (done ++ u').take (done ++ u').length := by
            rw [e2, List.take_append_of_le_length (Nat.le_refl _)]
          rw [List.take_append_of_le_length (by simp only [List.length_append]; omega)] at e3
          rw [e3, List.take_length]
        have hout : mapLoop dfa capa (s :: rest) st (done ++ u) =
            mapLoop dfa capa rest 0 (done ++ u' ++ m.replacement.take (capa - 1 - (done ++ u').length)) := by
          rw [hloop, h1]
          dsimp only
          rw [h2, if_neg (by simp only [List.length_append]; omega), hkeep]
        have hklen : (done ++ u').length ≤ capa - 1 := by
          simp only [List.length_append] at hcap ⊢
          have h0 : 0 < m.pattern.length := List.length_pos_iff.2 (hne' m (by rw [hAB]; simp))
          omega
        obtain ⟨d0, hd0, hset0⟩ := hB.start
        have hat0 : At (maps.map asMapping).reverse dfa 0 [] := ⟨d0, hd0, by rw [hset0]; exact stands_nil _⟩
        rcases Nat.lt_or_ge (capa - 1) ((done ++ u').length + m.replacement.length) with hbig | hsmall
        · -- the replacement does not fit: the buffer is full
          have hnone0 : ∀ m' ∈ maps, ¬ m'.1 <:+: ([] : List Byte) := by
            intro m' hm' hin
            exact hne m' hm' (List.infix_nil.1 hin)
          have hfull : (done ++ u' ++ m.replacement.take (capa - 1 - (done ++ u').length)).length = capa - 1 := by
            rw [List.length_append, List.length_take, Nat.min_eq_left (by omega)]; omega
          have htake : (done ++ (u' ++ (m.replacement ++ []))).take (capa - 1) =
              done ++ u' ++ m.replacement.take (capa - 1 - (done ++ u').length) := by
            rw [List.append_nil, ← List.append_assoc, List.take_append, List.take_of_length_le hklen]
          refine ⟨[s], rest, done ++ (u' ++ (m.replacement ++ [])), rfl, ?_, ?_, .inr (by rw [htake, hfull])⟩
          · have := hstep [] [] (.same [] hnone0)
            simpa using this
          · rw [hout, htake]
            cases rest with
            | nil => rfl
            | cons s' rest' =>
              simp only [mapLoop]
              rw [if_neg (by rw [hfull]; omega)]
        · rw [List.take_of_length_le (by omega)] at hout
          obtain ⟨a, b, o, rfl, h6, h7, h8⟩ := ih 0 (c0 ++ (u ++ [s])) (done ++ u' ++ m.replacement) []
            (by
              intro x y hxy
              have := hstep x y hxy
              simpa using this)
            (by
              intro m' hm' hin
              exact hne m' hm' (List.infix_nil.1 hin))
            hat0 (by simp only [List.length_append, List.length_nil] at hsmall ⊢; omega)
          refine ⟨s :: a, b, o, rfl, by simpa using h6, ?_, h8⟩
          rw [hout, ← h7, List.append_nil]
    · refine ⟨[], s :: rest, done ++ u, rfl, ?_, ?_, .inr ?_⟩
      · rw [List.append_nil]
        exact hc _ _ (.same u hu)
      · rw [List.take_of_length_le hlen]
        simp only [mapLoop]
        rw [if_neg hcap]
      · rw [List.take_of_length_le hlen]; omega

theorem mapperOf_built (maps : List (List Byte × List Byte)) (hm : ∀ m ∈ maps, m.1 ≠ [] ∧ m.1.length ≤ 384) :
    ∃ n dfa, Laid n (maps.map asMapping).reverse ∧ Built n (alphabet (maps.map asMapping)) dfa ∧
      mapperOf maps = .ok ⟨maps.map asMapping, some dfa⟩ := by
  obtain ⟨d, hd⟩ := addMappings_ok Mapper.new maps (fun m h => (hm m h).1)
  obtain ⟨n, dfa, hL, hB, hcomp⟩ := compile_ok ⟨maps.map asMapping, d⟩ (by
    intro m hmem
    obtain ⟨p, hp, rfl⟩ := List.mem_map.1 hmem
    exact hm p hp)
  exact ⟨n, dfa, hL, hB, by unfold mapperOf; rw [hd]; simpa [Mapper.new] using hcomp⟩

/-- **C53 (bounded patterns).** Whatever mappings are given, of patterns of at most 384 bytes: mapping a text into a
buffer of `capa` bytes gives the text with the patterns replaced, cut to what the buffer holds beside the
terminating zero; what is not read of the text, is not read because the buffer is full.

Missing: longer patterns, see `c53_long_pattern_ub`. -/
theorem c53_map_partial (maps : List (List Byte × List Byte)) (hm : ∀ m ∈ maps, m.1 ≠ [] ∧ m.1.length ≤ 384) :
    ∃ s, mapperOf maps = .ok s ∧ ∀ text capa, 0 < capa →
      ∃ read unread out, text = read ++ unread ∧ Mapped maps read out ∧
        s.mapLen text capa = .ok (out.take (capa - 1)) ∧
        (unread = [] ∨ (out.take (capa - 1)).length = capa - 1) := by
  obtain ⟨n, dfa, hL, hB, hs⟩ := mapperOf_built maps hm
  refine ⟨_, hs, ?_⟩
  intro text capa h0
  have hne := fun m h => (hm m h).1
  obtain ⟨d0, hd0, hset0⟩ := hB.start
  obtain ⟨a, b, o, h1, h2, h3, h4⟩ := mapLoop_mapped hne hL hB capa text 0 [] [] [] (by simp)
    (by
      intro m' hm' hin
      exact hne m' hm' (List.infix_nil.1 hin))
    ⟨d0, hd0, by rw [hset0]; exact stands_nil _⟩ (by simp)
  refine ⟨a, b, o, h1, by simpa using h2, ?_, h4⟩
  unfold Mapper.mapLen
  dsimp only
  rw [if_neg (by omega)]
  exact h3

/-! ### There is one way to replace -/

theorem lastGiven_find {maps : List (List Byte × List Byte)} {p r : List Byte} (h : LastGiven maps p r) :
    maps.reverse.find? (fun m => m.1 == p) = some (p, r) := by
  obtain ⟨a, b, rfl, hb⟩ := h
  rw [List.reverse_append, List.reverse_cons, List.find?_append, List.find?_append]
  have : b.reverse.find? (fun m => m.1 == p) = none := by
    rw [List.find?_eq_none]
    intro m hm
    simpa using hb m (by simpa using hm)
  rw [this]
  simp

theorem lastGiven_mem {maps : List (List Byte × List Byte)} {p r : List Byte} (h : LastGiven maps p r) :
    (p, r) ∈ maps := by
  obtain ⟨a, b, rfl, _⟩ := h
  simp

/-- What a text becomes is determined. -/
theorem c53_unique (maps : List (List Byte × List Byte)) {text o o' : List Byte} (hne : ∀ m ∈ maps, m.1 ≠ [])
    (h : Mapped maps text o) (h' : Mapped maps text o') : o = o' := by
  have short : ∀ {u p r u' p' rest rest' : List Byte}, (p, r) ∈ maps → u ++ p ++ rest = u' ++ p' ++ rest' →
      (∀ m ∈ maps, ¬ m.1 <:+: (u' ++ p').dropLast) → (u' ++ p').length ≤ (u ++ p).length := by
    intro u p r u' p' rest rest' hp e hf
    rcases Nat.lt_or_ge (u ++ p).length (u' ++ p').length with hlt | hge
    · exfalso
      apply hf _ hp
      have e1 : (u' ++ p').take (u ++ p).length = u ++ p := by
        have := congrArg (List.take (u ++ p).length) e
        rw [List.take_append_of_le_length (Nat.le_refl _), List.take_length,
          List.take_append_of_le_length (Nat.le_of_lt hlt)] at this
        exact this.symm
      have e2 : (u' ++ p').dropLast.take (u ++ p).length = u ++ p := by
        rw [List.dropLast_eq_take, List.take_take, Nat.min_eq_left (by omega)]
        exact e1
      exact ⟨u, (u' ++ p').dropLast.drop (u ++ p).length, by
        conv => rhs; rw [← List.take_append_drop (u ++ p).length (u' ++ p').dropLast, e2]⟩
    · exact hge
  induction h generalizing o' with
  | same u hnone =>
    generalize ht : u = t at h'
    cases h' with
    | same => rfl
    | replace u' p r rest out given first longest more =>
      exact absurd (show p <:+: u by rw [ht]; exact ⟨u', rest, rfl⟩) (hnone _ (lastGiven_mem given))
  | replace u p r rest out given first longest more ih =>
    generalize ht : u ++ p ++ rest = t at h'
    cases h' with
    | same _ hnone =>
      exact absurd ⟨u, rest, ht⟩ (hnone _ (lastGiven_mem given))
    | replace u' p' r' rest' out' given' first' longest' more' =>
      have l1 := short (lastGiven_mem given) ht first'
      have l2 := short (lastGiven_mem given') ht.symm first
      have hup : u ++ p = u' ++ p' := List.append_inj_left ht (by omega)
      have hrest : rest = rest' := List.append_inj_right ht (by omega)
      subst hrest
      have q1 := longest' _ (lastGiven_mem given) (by rw [← hup]; exact List.suffix_append _ _)
      have q2 := longest _ (lastGiven_mem given') (by rw [hup]; exact List.suffix_append _ _)
      dsimp only at q1 q2
      have hp : p = p' := List.append_inj_right' hup (by omega)
      have hu : u = u' := List.append_inj_left' hup (by omega)
      subst hp hu
      have hr := (lastGiven_find given).symm.trans (lastGiven_find given')
      simp only [Option.some.injEq, Prod.mk.injEq, true_and] at hr
      rw [hr, ih more']

theorem mapped_length {maps : List (List Byte × List Byte)} {k : Nat} (hk : 1 ≤ k)
    (hm : ∀ m ∈ maps, m.1 ≠ [] ∧ m.2.length ≤ k) {text o : List Byte} (h : Mapped maps text o) :
    o.length ≤ text.length * k := by
  induction h with
  | same u _ => exact Nat.le_mul_of_pos_right _ hk
  | replace u p r rest out given first longest more ih =>
    have hp : 0 < p.length := List.length_pos_iff.2 (hm _ (lastGiven_mem given)).1
    have hr := (hm _ (lastGiven_mem given)).2
    dsimp only at hr
    simp only [List.length_append, Nat.add_mul]
    have h1 : u.length ≤ u.length * k := Nat.le_mul_of_pos_right _ hk
    have h2 : k ≤ p.length * k := Nat.le_mul_of_pos_left _ hp
    omega

/-- A buffer that has room for every byte of the text to become the longest replacement gets the whole text, with
the patterns replaced. -/
theorem c53_whole_partial (maps : List (List Byte × List Byte)) (k : Nat) (hk : 1 ≤ k)
    (hm : ∀ m ∈ maps, m.1 ≠ [] ∧ m.1.length ≤ 384 ∧ m.2.length ≤ k) :
    ∃ s, mapperOf maps = .ok s ∧ ∀ text capa, text.length * k < capa →
      ∃ out, Mapped maps text out ∧ s.mapLen text capa = .ok out := by
  obtain ⟨s, hs, h⟩ := c53_map_partial maps (fun m h => ⟨(hm m h).1, (hm m h).2.1⟩)
  refine ⟨s, hs, ?_⟩
  intro text capa hcap
  obtain ⟨a, b, o, rfl, h1, h2, h3⟩ := h text capa (by omega)
  have hlen := mapped_length hk (fun m h => ⟨(hm m h).1, (hm m h).2.2⟩) h1
  rw [List.length_append, Nat.add_mul] at hcap
  have htake : o.take (capa - 1) = o := List.take_of_length_le (by omega)
  rw [htake] at h2 h3
  have hb : b = [] := by
    rcases h3 with h3 | h3
    · exact h3
    · rcases b with _ | ⟨x, b⟩
      · rfl
      · exfalso
        have : 1 * k ≤ (x :: b).length * k := Nat.mul_le_mul_right _ (by simp)
        omega
  subst hb
  exact ⟨o, by simpa using h1, h2⟩

/-- A text in which no pattern occurs is copied. -/
theorem c53_untouched_partial (maps : List (List Byte × List Byte)) (hm : ∀ m ∈ maps, m.1 ≠ [] ∧ m.1.length ≤ 384)
    (text : List Byte) (hno : ∀ m ∈ maps, ¬ m.1 <:+: text) :
    ∃ s, mapperOf maps = .ok s ∧ ∀ capa, text.length < capa → s.mapLen text capa = .ok text := by
  obtain ⟨s, hs, h⟩ := c53_map_partial maps hm
  refine ⟨s, hs, ?_⟩
  intro capa hcap
  obtain ⟨a, b, o, rfl, h1, h2, h3⟩ := h text capa (by omega)
  have ho : o = a := c53_unique maps (fun m h => (hm m h).1) h1 (.same a (by
    intro m hmem hin
    exact hno m hmem (hin.trans ⟨[], b, by simp⟩)))
  subst ho
  have htake : o.take (capa - 1) = o := List.take_of_length_le (by simp at hcap; omega)
  rw [htake] at h2 h3
  have hb : b = [] := by
    rcases h3 with h3 | h3
    · exact h3
    · rcases b with _ | ⟨x, b⟩
      · rfl
      · simp at hcap; omega
  subst hb
  simpa using h2

/-! ### Where it does not hold -/

/-- It is not the longest pattern from the left that is replaced: of "ab" and "abcd", the second is never seen. -/
theorem c53_not_longest :
    (mapperOf [([97, 98], [120]), ([97, 98, 99, 100], [121])] >>= fun s => s.mapLen [97, 98, 99, 100] 100)
      = .ok [120, 99, 100] := by decide +kernel

/-- A pattern of 512 bytes is written past the end of the array of states. -/
theorem c53_long_pattern_ub : mapperOf [(List.replicate 512 97, [120])] = .ub := by decide +kernel

/-- Mapping with a mapper that was given a mapping and not compiled since uses freed or uninitialised memory. -/
theorem c53_uncompiled_ub (s : Mapper) (p r text : List Byte) (capa : Nat) (hp : p ≠ []) :
    (s.add p r >>= fun s => s.mapLen text capa) = .ub := by
  simp only [Mapper.add, if_neg hp, Res.ok_bind, Mapper.mapLen]

theorem dynLoop_ub {n : Nfa} {maps : List (List Byte × List Byte)} (hne : ∀ m ∈ maps, m.1 ≠ [])
    {dfa : List DState} (hL : Laid n (maps.map asMapping).reverse) (hB : Built n (alphabet (maps.map asMapping)) dfa)
    (text : List Byte) (hno : ∀ m ∈ maps, ¬ m.1 <:+: text) (rest : List Byte) : ∀ (st : Nat) (u : List Byte),
      rest ≠ [] → text = u ++ rest → At (maps.map asMapping).reverse dfa st u →
      dynLoop dfa text.length rest st u = .ub := by
  induction rest with
  | nil => intro st u h; exact absurd rfl h
  | cons s rest ih =>
    intro st u _ ht ⟨d, hd, hs⟩
    obtain ⟨e, he, hse⟩ := at_step hL hB hd hs s
    simp only [dynLoop]
    by_cases hc : u.length + 1 < text.length
    · rw [if_pos hc, hd]
      simp only [Res.ofOption, Res.ok_bind, he]
      have hnone : e.mapping = none := by
        rcases at_match (maps := maps.map asMapping) (by
            intro m hm
            obtain ⟨p, hp, rfl⟩ := List.mem_map.1 hm
            exact hne p hp) hL hB (List.mem_of_getElem? he) hse with ⟨h, _⟩ | ⟨A, m, B, hAB, _, _, h3, _⟩
        · exact h
        · exfalso
          have hm : m ∈ maps.map asMapping := by rw [hAB]; simp
          obtain ⟨p, hp, rfl⟩ := List.mem_map.1 hm
          apply hno p hp
          rw [ht, show u ++ s :: rest = u ++ [s] ++ rest by simp]
          exact h3.isInfix.trans ⟨[], rest, by simp⟩
      rw [hnone]
      dsimp only
      refine ih _ _ ?_ (by rw [ht]; simp) ⟨e, he, hse⟩
      rintro rfl
      rw [ht] at hc
      simp at hc
    · rw [if_neg hc]

/-- mulmap_dynamic_map on any text in which no pattern occurs writes outside of its buffer: it is always too short,
and the result of growing it is dropped. -/
theorem c53_dynamic_ub (maps : List (List Byte × List Byte)) (hm : ∀ m ∈ maps, m.1 ≠ [] ∧ m.1.length ≤ 384)
    (text : List Byte) (hno : ∀ m ∈ maps, ¬ m.1 <:+: text) :
    (mapperOf maps >>= fun s => s.dynamicMap text) = .ub := by
  obtain ⟨n, dfa, hL, hB, hs⟩ := mapperOf_built maps hm
  rw [hs, Res.ok_bind]
  unfold Mapper.dynamicMap
  dsimp only
  cases text with
  | nil => rfl
  | cons s rest =>
    obtain ⟨d0, hd0, hset0⟩ := hB.start
    rw [dynLoop_ub (fun m h => (hm m h).1) hL hB (s :: rest) hno (s :: rest) 0 [] (by simp) rfl
      ⟨d0, hd0, by rw [hset0]; exact stands_nil _⟩]
    rfl

/-! ### The statements are about something -/

/-- "abc cabc" with three mappings. -/
example : (mapperOf [([97, 98, 99], [104]), ([97, 98, 99, 100], [105]), ([99, 97, 98], [116, 120])] >>= fun s =>
    s.mapLen [97, 98, 99, 32, 99, 97, 98, 99] 100) = .ok [104, 32, 116, 120, 99] := by decide +kernel

example : Mapped [([97, 98, 99], [104]), ([97, 98, 99, 100], [105]), ([99, 97, 98], [116, 120])]
    [97, 98, 99, 32, 99, 97, 98, 99] [104, 32, 116, 120, 99] := by
  obtain ⟨s, hs, h⟩ := c53_whole_partial [([97, 98, 99], [104]), ([97, 98, 99, 100], [105]), ([99, 97, 98], [116, 120])]
    2 (by omega) (by decide)
  obtain ⟨out, h1, h2⟩ := h [97, 98, 99, 32, 99, 97, 98, 99] 100 (by decide)
  have h3 : (mapperOf [([97, 98, 99], [104]), ([97, 98, 99, 100], [105]), ([99, 97, 98], [116, 120])] >>= fun s =>
    s.mapLen [97, 98, 99, 32, 99, 97, 98, 99] 100) = .ok [104, 32, 116, 120, 99] := by decide +kernel
  rw [hs, Res.ok_bind, h2] at h3
  cases h3
  exact h1

/-- A buffer of four bytes. -/
example : (mapperOf [([97, 98, 99], [104]), ([99, 97, 98], [116, 120])] >>= fun s =>
    s.mapLen [97, 98, 99, 32, 99, 97, 98, 99] 4) = .ok [104, 32, 99] := by decide +kernel

#print axioms c53_map_partial
#print axioms c53_unique
#print axioms c53_whole_partial
#print axioms c53_untouched_partial
#print axioms c53_not_longest
#print axioms c53_long_pattern_ub
#print axioms c53_uncompiled_ub
#print axioms c53_dynamic_ub
end Ferret.Props
