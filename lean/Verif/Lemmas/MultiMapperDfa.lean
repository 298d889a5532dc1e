import Verif.Lemmas.MultiMapper
import Verif.Lemmas.HashSet

/-!
mulmap_process_state ends and leaves every state complete; mulmap_map_len on complete states.
-/

namespace Ferret.MultiMap
open Ferret

/-- The state at `i` stands for the set `s`. -/
def Sets (t : List DState) (i s : Nat) : Prop := ∃ d, t[i]? = some d ∧ d.set = s

/-- The state is as the code means it to be. -/
structure DoneAt (n : Nfa) (alpha : List Byte) (t : List DState) (d : DState) : Prop where
  go : ∀ c ∈ alpha, ∃ s, stepSet n d.set c = .ok s ∧ Sets t (d.go c) s
  other : ∀ c, c ∉ alpha → d.go c = 0
  best : findMatch n (bits n.size d.set) (0, none) = .ok (d.longest, d.mapping)

structure TOK (n : Nfa) (t : List DState) : Prop where
  nodup : (t.map (·.set)).Nodup
  valid : ∀ d ∈ t, Valid n d.set

/-- Nothing of `t` has changed in `t'`. -/
def Keeps (t t' : List DState) : Prop := ∀ (k : Nat) (d : DState), t[k]? = some d → t'[k]? = some d

/-- The states of `t` stand for the same sets in `t'`. -/
def SameSets (t t' : List DState) : Prop := ∀ k s, Sets t k s → Sets t' k s

theorem Keeps.trans {a b c : List DState} (h : Keeps a b) (h' : Keeps b c) : Keeps a c :=
  fun k d hk => h' k d (h k d hk)

theorem Keeps.sets {a b : List DState} (h : Keeps a b) : SameSets a b :=
  fun k _ ⟨d, hd, e⟩ => ⟨d, h k d hd, e⟩

theorem Keeps.length {a b : List DState} (h : Keeps a b) : a.length ≤ b.length := by
  rcases Nat.lt_or_ge b.length a.length with hl | hl
  · have := h b.length a[b.length] (List.getElem?_eq_getElem hl)
    rw [List.getElem?_eq_none (Nat.le_refl _)] at this
    cases this
  · exact hl

theorem DoneAt.mono {n : Nfa} {alpha : List Byte} {t t' : List DState} {d : DState} (h : DoneAt n alpha t d)
    (hs : SameSets t t') : DoneAt n alpha t' d :=
  ⟨fun c hc => let ⟨s, h1, h2⟩ := h.go c hc; ⟨s, h1, hs _ _ h2⟩, h.other, h.best⟩

theorem valid_lt {n : Nfa} {bv : Nat} (h : Valid n bv) : bv < 2 ^ n.size := by
  apply Nat.lt_pow_two_of_testBit
  intro i hi
  cases hb : bv.testBit i with
  | false => rfl
  | true => exact absurd (h _ hb).2 (by omega)

theorem TOK.length {n : Nfa} {t : List DState} (h : TOK n t) : t.length ≤ 2 ^ n.size := by
  have := HashSet.nodup_lt_length (t.map (·.set)) (2 ^ n.size) h.nodup (fun x hx => by
    obtain ⟨d, hd, rfl⟩ := List.mem_map.1 hx
    exact valid_lt (h.valid d hd))
  simpa using this

/-- What is asked of the recursive call. -/
def Rec (n : Nfa) (alpha : List Byte) (bound : Nat) (rec : List DState → Nat → Res (Nat × List DState)) : Prop :=
  ∀ t bv, TOK n t → Valid n bv → bound ≤ t.length → ∃ i t', rec t bv = .ok (i, t') ∧ TOK n t' ∧ Keeps t t' ∧
    Sets t' i bv ∧ ∀ k d, t.length ≤ k → t'[k]? = some d → DoneAt n alpha t' d

theorem map_set_modify (t : List DState) (i : Nat) (c : Byte) (j : Nat) :
    (t.modify i (fun d => { d with next := (c, j) :: d.next })).map (·.set) = t.map (·.set) := by
  apply List.ext_getElem?
  intro k
  rw [List.getElem?_map, List.getElem?_map, List.getElem?_modify]
  cases t[k]? with
  | none => rfl
  | some d => by_cases h : i = k <;> simp [h]

theorem letterLoop_ok {n : Nfa} {L : List Mapping} (hL : Laid n L) {alpha : List Byte} {bound : Nat}
    {rec : List DState → Nat → Res (Nat × List DState)} (hrec : Rec n alpha bound rec) {cur bv : Nat}
    (hbv : Valid n bv) (best : Nat × Option (List Byte)) (cs : List Byte) :
    ∀ (ds : List Byte) (t : List DState), TOK n t → bound ≤ t.length → cur < t.length →
      (∃ d, t[cur]? = some d ∧ d.set = bv ∧ (d.longest, d.mapping) = best ∧
        (∀ c ∈ ds, ∃ s, stepSet n bv c = .ok s ∧ Sets t (d.go c) s) ∧ ∀ c, c ∉ ds → d.go c = 0) →
      (∀ k d, cur < k → t[k]? = some d → DoneAt n alpha t d) →
      ∃ t', letterLoop n rec cur bv cs t = .ok t' ∧ TOK n t' ∧ t.length ≤ t'.length ∧
        (∀ k d, k ≠ cur → t[k]? = some d → t'[k]? = some d) ∧
        (∃ d, t'[cur]? = some d ∧ d.set = bv ∧ (d.longest, d.mapping) = best ∧
          (∀ c ∈ ds ++ cs, ∃ s, stepSet n bv c = .ok s ∧ Sets t' (d.go c) s) ∧
          ∀ c, c ∉ ds ++ cs → d.go c = 0) ∧
        ∀ k d, cur < k → t'[k]? = some d → DoneAt n alpha t' d := by
  induction cs with
  | nil =>
    intro ds t hok _ _ hd hdone
    exact ⟨t, rfl, hok, Nat.le_refl _, fun _ _ _ h => h, by simpa using hd, hdone⟩
  | cons c cs ih =>
    intro ds t hok hbound hcur ⟨d, hd, hset, hbest, hgo, hother⟩ hdone
    obtain ⟨s, hs, hvs, _⟩ := stepSet_ok hL c hbv
    obtain ⟨i, t₁, hr, hok₁, hk₁, hi, hnew⟩ := hrec t s hok hvs hbound
    have hlen₁ := hk₁.length
    obtain ⟨t₂, ht₂⟩ : ∃ t₂, t₂ = t₁.modify cur (fun d => { d with next := (c, i) :: d.next }) := ⟨_, rfl⟩
    have hmap : t₂.map (·.set) = t₁.map (·.set) := by rw [ht₂]; exact map_set_modify _ _ _ _
    have hlen₂ : t₂.length = t₁.length := by rw [ht₂]; simp
    have hget : ∀ k, k ≠ cur → t₂[k]? = t₁[k]? := by
      intro k hk
      rw [ht₂, List.getElem?_modify]
      have h' : ¬ cur = k := fun e => hk e.symm
      simp [h']
    have hsame : SameSets t₁ t₂ := by
      rintro k s ⟨d', hd', rfl⟩
      have : (t₂.map (·.set))[k]? = some d'.set := by rw [hmap, List.getElem?_map, hd']; rfl
      rw [List.getElem?_map] at this
      cases h2 : t₂[k]? with
      | none => rw [h2] at this; cases this
      | some d'' => rw [h2] at this; exact ⟨d'', h2, by simpa using this⟩
    have hcur₂ : t₂[cur]? = some { d with next := (c, i) :: d.next } := by
      rw [ht₂, List.getElem?_modify, hk₁ _ _ hd]; simp
    have hok₂ : TOK n t₂ := by
      refine ⟨by rw [hmap]; exact hok₁.nodup, ?_⟩
      intro d' hd'
      have : d'.set ∈ t₁.map (·.set) := by rw [← hmap]; exact List.mem_map_of_mem hd'
      obtain ⟨d'', h1, h2⟩ := List.mem_map.1 this
      rw [← h2]
      exact hok₁.valid d'' h1
    have hdgo : ∀ c', DState.go { d with next := (c, i) :: d.next } c' = if c = c' then i else d.go c' := by
      intro c'
      unfold DState.go
      by_cases h : c = c'
      · subst h; simp
      · have h' : (c == c') = false := by simpa using h
        simp [List.find?_cons, h', h]
    obtain ⟨t', h1, h2, h3, h4, h5, h6⟩ := ih (ds ++ [c]) t₂ hok₂ (by omega) (by omega)
      ⟨_, hcur₂, hset, hbest, by
        intro c' hc'
        rw [hdgo]
        by_cases h : c = c'
        · subst h
          rw [if_pos rfl]
          exact ⟨s, hs, hsame _ _ hi⟩
        · rw [if_neg h]
          rcases List.mem_append.1 hc' with h' | h'
          · obtain ⟨s', e1, e2⟩ := hgo c' h'
            exact ⟨s', e1, hsame _ _ (hk₁.sets _ _ e2)⟩
          · exact absurd (List.mem_singleton.1 h').symm h, by
        intro c' hc'
        rw [hdgo, if_neg (fun e => hc' (by simp [e]))]
        exact hother c' (fun e => hc' (by simp [e]))⟩
      (by
        intro k d' hk hd'
        rw [hget k (by omega)] at hd'
        rcases Nat.lt_or_ge k t.length with hlt | hge
        · have hd₀ : t[k]? = some t[k] := List.getElem?_eq_getElem hlt
          have := hk₁ _ _ hd₀
          rw [hd'] at this
          cases this
          exact ((hdone k _ hk hd₀).mono hk₁.sets).mono hsame
        · exact (hnew k d' hge hd').mono hsame)
    refine ⟨t', ?_, h2, by omega, ?_, ?_, h6⟩
    · simp only [letterLoop, hs, Res.ok_bind, hr]
      rw [ht₂] at h1
      exact h1
    · intro k d' hk hd'
      exact h4 k d' hk (by rw [hget k hk]; exact hk₁ _ _ hd')
    · obtain ⟨d', e1, e2, e3, e4, e5⟩ := h5
      exact ⟨d', e1, e2, e3, by simpa using e4, by simpa using e5⟩

theorem findMatch_total {n : Nfa} {L : List Mapping} (h : Laid n L) {bv : Nat} (hv : Valid n bv) :
    ∃ r, findMatch n (bits n.size bv) (0, none) = .ok r := by
  rcases findMatch_ok h (bits n.size bv) (fun i hi => hv i ((mem_bits hv i).1 hi)) (0, none) with
    ⟨h, _⟩ | ⟨_, _, _, m, _, _, _, h, _⟩
  · exact ⟨_, h⟩
  · exact ⟨_, h⟩

theorem processState_ok {n : Nfa} {L : List Mapping} (hL : Laid n L) (alpha : List Byte) (fuel : Nat) :
    Rec n alpha (2 ^ n.size + 1 - fuel) (processState n alpha fuel) := by
  induction fuel with
  | zero =>
    intro t bv hok _ hb
    have := hok.length
    omega
  | succ fuel ih =>
    intro t bv hok hv hb
    unfold processState
    cases hf : t.findIdx? (fun d => d.set == bv) with
    | some i =>
      refine ⟨i, t, rfl, hok, fun _ _ h => h, ?_, ?_⟩
      · rw [List.findIdx?_eq_some_iff_getElem] at hf
        obtain ⟨h1, h2, _⟩ := hf
        exact ⟨t[i], List.getElem?_eq_getElem h1, by simpa using h2⟩
      · intro k d hk hd
        rw [List.getElem?_eq_none hk] at hd
        cases hd
    | none =>
      obtain ⟨m, hm⟩ := findMatch_total hL hv
      rw [List.findIdx?_eq_none_iff] at hf
      have hok' : TOK n (t ++ [⟨bv, [], m.1, m.2⟩]) := by
        constructor
        · rw [List.map_append, List.map_singleton, List.nodup_append]
          refine ⟨hok.nodup, by simp, ?_⟩
          intro a ha b hb e
          rw [List.mem_singleton] at hb
          subst hb e
          obtain ⟨d, hd, e⟩ := List.mem_map.1 ha
          have := hf d hd
          simp [e] at this
        · intro d hd
          rcases List.mem_append.1 hd with hd | hd
          · exact hok.valid d hd
          · rw [List.mem_singleton] at hd; rw [hd]; exact hv
      have hcur : (t ++ [(⟨bv, [], m.1, m.2⟩ : DState)])[t.length]? = some ⟨bv, [], m.1, m.2⟩ := by
        rw [List.getElem?_append_right (Nat.le_refl _), Nat.sub_self]; rfl
      obtain ⟨t', h1, h2, h3, h4, ⟨d, e1, e2, e3, e4, e5⟩, h6⟩ := letterLoop_ok hL ih hv m alpha.reverse []
        (t ++ [⟨bv, [], m.1, m.2⟩]) hok' (by simp; omega) (by simp)
        ⟨_, hcur, rfl, rfl, by simp, fun _ _ => rfl⟩
        (by
          intro k d hk hd
          rw [List.getElem?_eq_none (by simp; omega)] at hd
          cases hd)
      refine ⟨t.length, t', ?_, h2, ?_, ⟨d, e1, e2⟩, ?_⟩
      · simp only [hm, Res.ok_bind, h1]
      · intro k d' hd'
        have hlt : k < t.length := by
          rcases Nat.lt_or_ge k t.length with h' | h'
          · exact h'
          · rw [List.getElem?_eq_none h'] at hd'; cases hd'
        exact h4 k d' (by omega) (by rw [List.getElem?_append_left hlt]; exact hd')
      · intro k d' hk hd'
        rcases Nat.eq_or_lt_of_le hk with rfl | hlt
        · rw [e1] at hd'
          cases hd'
          refine ⟨?_, ?_, ?_⟩
          · intro c hc
            rw [e2]
            exact e4 c (by simpa using hc)
          · intro c hc
            exact e5 c (by simpa using hc)
          · rw [e2, hm, e3]
        · exact h6 k d' hlt hd'

/-- The deterministic states that mulmap_compile leaves. -/
structure Built (n : Nfa) (alpha : List Byte) (dfa : List DState) : Prop where
  start : Sets dfa 0 0
  valid : ∀ d ∈ dfa, Valid n d.set
  done : ∀ d ∈ dfa, DoneAt n alpha dfa d

theorem compile_ok (s : Mapper) (hs : ∀ m ∈ s.maps, m.pattern ≠ [] ∧ m.pattern.length ≤ 384) :
    ∃ n dfa, Laid n s.maps.reverse ∧ Built n (alphabet s.maps) dfa ∧
      s.compile = .ok { s with dfa := some dfa } := by
  obtain ⟨n, hn, hL⟩ := addPatterns_ok laid_nil s.maps.reverse (fun m hm => hs m (by simpa using hm))
  rw [List.nil_append] at hL
  have hv0 : Valid n 0 := fun i h => by simp at h
  obtain ⟨i, dfa, h1, h2, h3, h4, h5⟩ := processState_ok hL (alphabet s.maps) (2 ^ n.size + 1) [] 0
    ⟨by simp, by simp⟩ hv0 (by simp)
  have hi : i = 0 := by
    unfold processState at h1
    simp only [List.findIdx?_nil] at h1
    obtain ⟨m, hm⟩ := findMatch_total hL hv0
    rw [hm] at h1
    simp only [Res.ok_bind] at h1
    obtain ⟨t', _, h1⟩ := Res.bind_eq_ok.1 h1
    cases h1
    rfl
  subst hi
  refine ⟨n, dfa, hL, ⟨h4, h2.valid, ?_⟩, ?_⟩
  · intro d hd
    obtain ⟨k, hk⟩ := List.getElem?_of_mem hd
    exact h5 k d (by simp) hk
  · simp only [Mapper.compile, hn, Res.ok_bind, h1]

theorem mem_alphabet (maps : List Mapping) (c : Byte) : c ∈ alphabet maps ↔ ∃ m ∈ maps, c ∈ m.pattern := by
  unfold alphabet
  rw [List.mem_filter, List.any_eq_true]
  constructor
  · rintro ⟨_, m, hm, h⟩
    exact ⟨m, hm, by simpa using h⟩
  · rintro ⟨m, hm, h⟩
    refine ⟨?_, m, hm, by simpa using h⟩
    rw [List.mem_map]
    exact ⟨c.toNat, by rw [List.mem_range]; exact c.toNat_lt, by simp⟩

/-! ### Reading a text -/

/-- The state at `st` is that after `u`. -/
def At (L : List Mapping) (dfa : List DState) (st : Nat) (u : List Byte) : Prop :=
  ∃ d, dfa[st]? = some d ∧ Stands L u d.set

theorem at_step {n : Nfa} {maps : List Mapping} {dfa : List DState} (hL : Laid n maps.reverse)
    (hB : Built n (alphabet maps) dfa) {st : Nat} {d : DState} (hd : dfa[st]? = some d) {u : List Byte}
    (hs : Stands maps.reverse u d.set) (c : Byte) :
    ∃ e, dfa[d.go c]? = some e ∧ Stands maps.reverse (u ++ [c]) e.set := by
  have hmem := List.mem_of_getElem? hd
  have hdone := hB.done d hmem
  obtain ⟨r, hr, _, hst⟩ := stands_step hL (hB.valid d hmem) hs c
  by_cases hc : c ∈ alphabet maps
  · obtain ⟨s, h1, e, h2, rfl⟩ := hdone.go c hc
    rw [h1] at hr
    cases hr
    exact ⟨e, h2, hst⟩
  · rw [hdone.other c hc]
    obtain ⟨e, h1, h2⟩ := hB.start
    refine ⟨e, h1, ?_⟩
    have : r = 0 := by
      apply Nat.eq_of_testBit_eq
      intro i
      rw [Nat.zero_testBit]
      cases hb : r.testBit i with
      | false => rfl
      | true =>
        obtain ⟨k, m, j, _, h3, h4⟩ := (hst i).1 hb
        rw [take_suffix_concat _ _ _ _ (flat_lt h3).2] at h4
        exfalso
        apply hc
        rw [mem_alphabet]
        exact ⟨m, by simpa using (flat_lt h3).1, List.mem_of_getElem? h4.1⟩
    rw [h2, ← this]
    exact hst

theorem at_match {n : Nfa} {maps : List Mapping} (hne : ∀ m ∈ maps, m.pattern ≠ []) {dfa : List DState}
    (hL : Laid n maps.reverse) (hB : Built n (alphabet maps) dfa) {e : DState} (he : e ∈ dfa) {u : List Byte}
    (hs : Stands maps.reverse u e.set) :
    (e.mapping = none ∧ ∀ m ∈ maps, ¬ m.pattern <:+ u) ∨
    ∃ a m b, maps = a ++ m :: b ∧ e.mapping = some m.replacement ∧ e.longest = m.pattern.length ∧
      m.pattern <:+ u ∧ (∀ m' ∈ maps, m'.pattern <:+ u → m'.pattern.length ≤ m.pattern.length) ∧
      ∀ m' ∈ b, m'.pattern ≠ m.pattern := by
  have hv := hB.valid e he
  have hends : ∀ m ∈ maps, m.pattern <:+ u → ∃ i, i ∈ bits n.size e.set ∧ Ends maps.reverse i m := by
    intro m hm hsuf
    have h0 : 0 < m.pattern.length := List.length_pos_iff.2 (hne m hm)
    obtain ⟨k, hk⟩ := flat_mem (L := maps.reverse) (m := m) (by simpa using hm) (j := m.pattern.length - 1) (by omega)
    refine ⟨k + 1, ?_, k, _, rfl, hk, by omega⟩
    rw [mem_bits hv, hs]
    refine ⟨k, m, _, rfl, hk, ?_⟩
    rw [List.take_of_length_le (by omega)]
    exact hsuf
  have hends' : ∀ i ∈ bits n.size e.set, ∀ m, Ends maps.reverse i m → m ∈ maps ∧ m.pattern <:+ u := by
    rintro i hi m ⟨k, j, rfl, h1, h2⟩
    rw [mem_bits hv, hs] at hi
    obtain ⟨k', m', j', e', h3, h4⟩ := hi
    obtain rfl : k = k' := by omega
    rw [h1] at h3
    cases h3
    rw [List.take_of_length_le (by omega)] at h4
    exact ⟨by simpa using (flat_lt h1).1, h4⟩
  have hbest := (hB.done e he).best
  rcases findMatch_ok hL (bits n.size e.set) (fun i hi => hv i ((mem_bits hv i).1 hi)) (0, none) with
    ⟨h1, h2⟩ | ⟨pre, i, post, m, h0, h1, _, h3, h4, h5⟩
  · left
    rw [h1] at hbest
    simp only [Res.ok.injEq, Prod.mk.injEq] at hbest
    refine ⟨hbest.2.symm, ?_⟩
    intro m hm hsuf
    obtain ⟨i, hi, hE⟩ := hends m hm hsuf
    have := h2 i hi m hE
    have h0 : 0 < m.pattern.length := List.length_pos_iff.2 (hne m hm)
    dsimp only at this
    omega
  · right
    rw [h3] at hbest
    simp only [Res.ok.injEq, Prod.mk.injEq] at hbest
    have hmu := hends' i (by rw [h0]; simp) m h1
    -- the place of `m` among the mappings: its letters are those at `i`
    obtain ⟨k, j, rfl, hk, hj⟩ := h1
    -- split the mappings at the state
    have hsplit : ∀ (L : List Mapping) k, (flat L)[k]? = some (m, j) → ∃ pre post, L = pre ++ m :: post ∧
        k = (flat pre).length + j := by
      intro L
      induction L with
      | nil => intro k h; simp [flat] at h
      | cons a L ih =>
        intro k h
        simp only [flat] at h
        rcases Nat.lt_or_ge k a.pattern.length with hlt | hge
        · rw [List.getElem?_append_left (by simpa using hlt), List.getElem?_map, List.getElem?_range hlt] at h
          simp only [Option.map_some, Option.some.injEq, Prod.mk.injEq] at h
          obtain ⟨rfl, rfl⟩ := h
          exact ⟨[], L, rfl, by simp [flat]⟩
        · rw [List.getElem?_append_right (by simpa using hge)] at h
          simp only [List.length_map, List.length_range] at h
          obtain ⟨pre, post, rfl, h2⟩ := ih _ h
          refine ⟨a :: pre, post, rfl, ?_⟩
          simp only [flat, List.length_append, List.length_map, List.length_range]
          omega
    obtain ⟨P, Q, hPQ, hk'⟩ := hsplit maps.reverse k hk
    refine ⟨Q.reverse, m, P.reverse, ?_, hbest.2.symm, hbest.1.symm, hmu.2, ?_, ?_⟩
    · have := congrArg List.reverse hPQ
      simpa using this
    · intro m' hm' hsuf
      obtain ⟨i', hi', hE⟩ := hends m' hm' hsuf
      rw [h0] at hi'
      rcases List.mem_append.1 hi' with hp | hp
      · exact Nat.le_of_lt (h4 i' hp m' hE)
      · rcases List.mem_cons.1 hp with rfl | hp
        · obtain ⟨k₂, j₂, e₂, hk₂, _⟩ := hE
          obtain rfl : k = k₂ := by omega
          rw [hk] at hk₂
          cases hk₂
          exact Nat.le_refl _
        · exact h5 i' hp m' hE
    · -- an earlier state for the same pattern would have been taken
      intro m' hm' heq
      have hm'P : m' ∈ P := by simpa using hm'
      obtain ⟨q, hq⟩ := flat_mem hm'P (j := j) (by rw [heq]; omega)
      have hqlt : q < (flat P).length := by
        rcases Nat.lt_or_ge q (flat P).length with h' | h'
        · exact h'
        · rw [List.getElem?_eq_none h'] at hq; cases hq
      have hq' : (flat maps.reverse)[q]? = some (m', j) := by
        rw [hPQ, flat_append, List.getElem?_append_left hqlt]; exact hq
      have hE : Ends maps.reverse (q + 1) m' := ⟨q, j, rfl, hq', by rw [heq]; omega⟩
      have hin : q + 1 ∈ bits n.size e.set := by
        rw [mem_bits hv, hs]
        refine ⟨q, m', j, rfl, hq', ?_⟩
        rw [heq, List.take_of_length_le (by omega)]
        exact hmu.2
      -- it is before the one found, as the bits go up
      have hsorted : (bits n.size e.set).Pairwise (· < ·) := by
        unfold bits
        exact List.Pairwise.filter _ List.pairwise_lt_range
      rw [h0] at hin hsorted
      rcases List.mem_append.1 hin with hp | hp
      · have := h4 (q + 1) hp m' hE
        rw [heq] at this
        omega
      · rcases List.mem_cons.1 hp with e' | hp
        · omega
        · rw [List.pairwise_append] at hsorted
          have := (List.pairwise_cons.1 hsorted.2.1).1 (q + 1) hp
          omega

end Ferret.MultiMap
