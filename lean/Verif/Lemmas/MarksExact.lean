import Verif.Lemmas.MarksPos
import Verif.Lemmas.ScorerCon

/-! Marking the occurrences of an exact phrase. -/

namespace Ferret.Marks

open Ferret.Spec
open Ferret.Expand (Term)
open Ferret.MV (MV mvAdd)
open Ferret.Scorer (rotL rotL_head rotL_prev rotL_set_first rotL_set_prev rotL_mem)

theorem left_set : ∀ (E : List Tvpe) (i : Nat) (t t' : Tvpe), E[i]? = some t →
    left (E.set i t') + (t.positions.length + 1 - t.seen) = left E + (t'.positions.length + 1 - t'.seen)
  | [], i, t, t', h => by simp at h
  | x :: E, 0, t, t', h => by
    simp only [List.getElem?_cons_zero, Option.some.injEq] at h
    subst h
    simp only [left, List.set_cons_zero, List.map_cons, List.sum_cons]
    omega
  | x :: E, i + 1, t, t', h => by
    simp only [List.getElem?_cons_succ] at h
    have := left_set E i t t' h
    simp only [left, List.set_cons_succ, List.map_cons, List.sum_cons] at *
    omega

theorem left_set_lt {E : List Tvpe} {i : Nat} {t t' : Tvpe} (h : E[i]? = some t) (ht : On t) (ht' : On t') (hs : SameList t t') (hlt : t.seen < t'.seen) : left (E.set i t') < left E := by
  have h1 := left_set E i t t' h
  have h2 := ht.lt
  have h3 := ht'.lt
  rw [hs.1] at h1 h3
  omega

/-- A position that all have. -/
def Common (E : List Tvpe) (p : Int) : Prop := ∀ t ∈ E, p ∈ rem t

theorem common_set {E : List Tvpe} {i : Nat} {t t' : Tvpe} {p : Int} (hi : E[i]? = some t) (hsub : ∀ q ∈ rem t', q ∈ rem t) (h : Common (E.set i t') p) : Common E p := by
  intro x hx
  obtain ⟨j, hj⟩ := List.getElem?_of_mem hx
  have hlt := (List.getElem?_eq_some_iff.1 hi).1
  by_cases hij : i = j
  · subst hij
    rw [hi] at hj; cases hj
    exact hsub p (h t' (List.mem_of_getElem? (List.getElem?_set_self hlt)))
  · exact h x (List.mem_of_getElem? (i := j) (by rw [List.getElem?_set_ne hij]; exact hj))

theorem set_common {E : List Tvpe} {i : Nat} {t' : Tvpe} {p : Int} (h : Common E p) (hp : p ∈ rem t') : Common (E.set i t') p := by
  intro x hx
  rcases List.mem_or_eq_of_mem_set hx with hx | rfl
  · exact h x hx
  · exact hp

theorem prev_next {f n : Nat} (h : f < n) : ((f + 1) % n + n - 1) % n = f := by
  by_cases he : f + 1 = n
  · rw [he, Nat.mod_self, Nat.mod_eq_of_lt (by omega)]; omega
  · rw [Nat.mod_eq_of_lt (show f + 1 < n by omega), show f + 1 + n - 1 = f + n by omega, Nat.add_mod_right, Nat.mod_eq_of_lt h]

theorem set_offset {E : List Tvpe} {i j : Nat} {t t' a : Tvpe} (hi : E[i]? = some t) (hs : SameList t t') (ha : E[j]? = some a) : ∃ a', (E.set i t')[j]? = some a' ∧ a'.offset = a.offset := by
  by_cases hij : i = j
  · subst hij
    rw [hi] at ha; cases ha
    exact ⟨t', List.getElem?_set_self (List.getElem?_eq_some_iff.1 hi).1, hs.2⟩
  · exact ⟨a, by rw [List.getElem?_set_ne hij]; exact ha, rfl⟩

theorem exactGo_spec (o1 o2 : Int) : ∀ (fuel : Nat) (E : List Tvpe) (first : Nat) (mv : MV), left E < fuel → first < E.length → (∀ t ∈ E, On t) →
    (rotL first E).Pairwise (fun a b => a.pos ≤ b.pos) → (∃ x, E[0]? = some x ∧ x.offset = o1) → (∃ y, E[E.length - 1]? = some y ∧ y.offset = o2) →
    ∃ mv' L, exactGo fuel E first ((first + E.length - 1) % E.length) mv = .ok mv' ∧ Added mv mv' L ∧
      ∀ a b, (a, b) ∈ L ↔ ∃ p, Common E p ∧ a = p + o1 ∧ b = p + o2 := by
  intro fuel
  induction fuel with
  | zero => intro E first mv h; omega
  | succ n ih =>
    intro E first mv hfuel hfst hon hsort hx hy
    have hpl : (first + E.length - 1) % E.length < E.length := Nat.mod_lt _ (by omega)
    obtain ⟨f, hf⟩ : ∃ x, E[first]? = some x := ⟨_, List.getElem?_eq_getElem hfst⟩
    obtain ⟨l, hl⟩ : ∃ x, E[(first + E.length - 1) % E.length]? = some x := ⟨_, List.getElem?_eq_getElem hpl⟩
    have hfh := rotL_head hfst
    have hlh := rotL_prev hfst
    rw [hf] at hfh
    rw [hl] at hlh
    have hfm := List.mem_of_getElem? hf
    have hlm := List.mem_of_getElem? hl
    have honf := hon f hfm
    have honl := hon l hlm
    have hle : ∀ e ∈ E, e.pos ≤ l.pos := by
      intro e he
      obtain ⟨ys, hys⟩ := List.getLast?_eq_some_iff.mp hlh.symm
      have he' : e ∈ rotL first E := rotL_mem.2 he
      rw [hys] at he' hsort
      rw [List.pairwise_append] at hsort
      rcases List.mem_append.1 he' with h1 | h1
      · exact hsort.2.2 e h1 l (by simp)
      · rw [List.mem_singleton.1 h1]; omega
    have hge : ∀ e ∈ E, f.pos ≤ e.pos := by
      intro e he
      have he' : e ∈ rotL first E := rotL_mem.2 he
      cases hr : rotL first E with
      | nil => rw [hr] at he'; cases he'
      | cons z zs =>
        rw [hr] at hfh hsort he'
        simp only [List.head?_cons, Option.some.injEq] at hfh
        subst hfh
        rcases List.mem_cons.1 he' with rfl | h1
        · omega
        · exact (List.pairwise_cons.1 hsort).1 e h1
    rw [exactGo, hf, hl]
    simp only [Res.ofOption, Res.ok_bind]
    by_cases hlt : f.pos < l.pos
    · rw [if_pos hlt]
      rcases skipTo_spec honf.asc l.pos with ⟨t', h1, h2, h3, h4, h5, h6, h7⟩ | ⟨t', h1, h2⟩
      · rw [h1]
        simp only [if_true]
        have hsub : ∀ q ∈ rem t', q ∈ rem f := fun q hq => by rw [honf.rem_eq]; exact List.mem_cons_of_mem _ (h6 q hq)
        obtain ⟨x, hx0, hxo⟩ := hx
        obtain ⟨y, hy0, hyo⟩ := hy
        obtain ⟨x', hx1, hx2⟩ := set_offset hf h3 hx0
        obtain ⟨y', hy1, hy2⟩ := set_offset hf h3 hy0
        have hlen : (E.set first t').length = E.length := List.length_set ..
        obtain ⟨mv', L, g1, g2, g3⟩ := ih (E.set first t') ((first + 1) % E.length) mv (by have := left_set_lt hf honf h2 h3 h5; omega)
          (by rw [hlen]; exact Nat.mod_lt _ (by omega)) (by
            intro t ht
            rcases List.mem_or_eq_of_mem_set ht with ht | rfl
            · exact hon t ht
            · exact h2) (by
            rw [rotL_set_first hfst, List.pairwise_append]
            refine ⟨hsort.sublist (List.tail_sublist _), List.pairwise_singleton .., fun a ha b hb => ?_⟩
            rw [List.mem_singleton.1 hb]
            exact Int.le_trans (hle a (rotL_mem.1 (List.mem_of_mem_tail ha))) h4) ⟨x', hx1, by rw [hx2, hxo]⟩ ⟨y', by rw [hlen]; exact hy1, by rw [hy2, hyo]⟩
        rw [hlen, prev_next hfst] at g1
        refine ⟨mv', L, g1, g2, fun a b => ?_⟩
        rw [g3]
        constructor
        · rintro ⟨p, hp, h⟩; exact ⟨p, common_set hf hsub hp, h⟩
        · rintro ⟨p, hp, h⟩
          refine ⟨p, set_common hp ?_, h⟩
          have hpl := honl.le_rem (hp l hlm)
          have hpf := hp f hfm
          rw [honf.rem_eq] at hpf
          rcases List.mem_cons.1 hpf with rfl | hpf
          · omega
          · exact h7 p hpf hpl
      · rw [h1]
        refine ⟨mv, [], by simp, Added.refl mv, fun a b => ⟨(fun h => by cases h), ?_⟩⟩
        rintro ⟨p, hp, _⟩
        exfalso
        have hpl := honl.le_rem (hp l hlm)
        have hpf := hp f hfm
        rw [honf.rem_eq] at hpf
        rcases List.mem_cons.1 hpf with rfl | hpf
        · omega
        · have := h2 p hpf; omega
    · rw [if_neg hlt]
      obtain ⟨x, hx0, hxo⟩ := hx
      obtain ⟨y, hy0, hyo⟩ := hy
      rw [hx0, hy0]
      simp only [Res.ok_bind]
      have hall : ∀ e ∈ E, e.pos = l.pos := by
        intro e he
        have h1 := hle e he
        have h2 := hge e he
        omega
      have hxp := hall x (List.mem_of_getElem? hx0)
      have hyp := hall y (List.mem_of_getElem? hy0)
      have hcom : Common E l.pos := by
        intro t ht
        rw [← hall t ht]
        exact (hon t ht).pos_mem
      rw [hxo, hyo, hxp, hyp]
      rcases next_spec honl.asc with ⟨t', h1, h2, h3, h4, h5⟩ | ⟨t', h1, h2, _⟩
      · rw [h1]
        simp only [if_true]
        have hsub : ∀ q ∈ rem t', q ∈ rem l := fun q hq => by rw [honl.rem_eq, ← h4]; exact List.mem_cons_of_mem _ hq
        obtain ⟨x', hx1, hx2⟩ := set_offset hl h3 hx0
        obtain ⟨y', hy1, hy2⟩ := set_offset hl h3 hy0
        have hlen : (E.set ((first + E.length - 1) % E.length) t').length = E.length := List.length_set ..
        obtain ⟨mv', L, g1, g2, g3⟩ := ih (E.set ((first + E.length - 1) % E.length) t') first (mvAdd mv (l.pos + o1) (l.pos + o2))
          (by have := left_set_lt hl honl h2 h3 (by omega); omega) (by rw [hlen]; exact hfst) (by
            intro t ht
            rcases List.mem_or_eq_of_mem_set ht with ht | rfl
            · exact hon t ht
            · exact h2) (by
            rw [rotL_set_prev hfst, List.pairwise_append]
            refine ⟨hsort.sublist (List.dropLast_sublist _), List.pairwise_singleton .., fun a ha b hb => ?_⟩
            rw [List.mem_singleton.1 hb]
            exact Int.le_trans (hle a (rotL_mem.1 ((List.dropLast_sublist _).mem ha))) (honl.le_rem (hsub _ h2.pos_mem)))
          ⟨x', hx1, by rw [hx2, hxo]⟩ ⟨y', by rw [hlen]; exact hy1, by rw [hy2, hyo]⟩
        rw [hlen] at g1
        refine ⟨mv', _, g1, (added_one ..).trans g2, fun a b => ?_⟩
        rw [List.mem_append, g3, List.mem_singleton, Prod.mk.injEq]
        constructor
        · rintro (⟨rfl, rfl⟩ | ⟨p, hp, h⟩)
          · exact ⟨l.pos, hcom, rfl, rfl⟩
          · exact ⟨p, common_set hl hsub hp, h⟩
        · rintro ⟨p, hp, rfl, rfl⟩
          by_cases hpe : p = l.pos
          · rw [hpe]; exact Or.inl ⟨rfl, rfl⟩
          · right
            refine ⟨p, set_common hp ?_, rfl, rfl⟩
            have := hp l hlm
            rw [honl.rem_eq, ← h4] at this
            rcases List.mem_cons.1 this with h | h
            · exact absurd h hpe
            · exact h
      · rw [h1]
        refine ⟨mvAdd mv (l.pos + o1) (l.pos + o2), [(l.pos + o1, l.pos + o2)], by simp, added_one .., fun a b => ?_⟩
        rw [List.mem_singleton, Prod.mk.injEq]
        constructor
        · rintro ⟨rfl, rfl⟩; exact ⟨l.pos, hcom, rfl, rfl⟩
        · rintro ⟨p, hp, rfl, rfl⟩
          have := hp l hlm
          rw [honl.rem_eq, h2, List.mem_singleton] at this
          rw [this]; exact ⟨rfl, rfl⟩

/-- The phrase, with its start at `p`. -/
def At (tv : List (Term × List Int)) (xs : List (PhrasePart Term)) (p : Int) : Prop := ∀ x ∈ xs, ∃ s ∈ x.terms, wordsOf tv s (p + x.offset)

/-- The enumerators of the parts `xs`. -/
def FitAll (tv : List (Term × List Int)) (xs : List (PhrasePart Term)) (E : List Tvpe) : Prop :=
  E.length = xs.length ∧ ∀ (i : Nat) x t, xs[i]? = some x → E[i]? = some t → On t ∧ Fits tv x t

theorem FitAll.on {tv : List (Term × List Int)} {xs : List (PhrasePart Term)} {E : List Tvpe} (h : FitAll tv xs E) {t : Tvpe} (ht : t ∈ E) : On t := by
  obtain ⟨i, hi⟩ := List.getElem?_of_mem ht
  have hlt := (List.getElem?_eq_some_iff.1 hi).1
  have hlt' : i < xs.length := by rw [← h.1]; exact hlt
  exact (h.2 i xs[i] t (List.getElem?_eq_getElem hlt') hi).1

theorem FitAll.snoc {tv : List (Term × List Int)} {xs : List (PhrasePart Term)} {E : List Tvpe} (h : FitAll tv xs E) {x : PhrasePart Term} {t : Tvpe} (h1 : On t) (h2 : Fits tv x t) :
    FitAll tv (xs ++ [x]) (E ++ [t]) := by
  refine ⟨by simp [h.1], fun i y e hy he => ?_⟩
  by_cases hi : i < xs.length
  · rw [List.getElem?_append_left hi] at hy
    rw [List.getElem?_append_left (by rw [h.1]; exact hi)] at he
    exact h.2 i y e hy he
  · rw [List.getElem?_append_right (by omega)] at hy
    rw [List.getElem?_append_right (by rw [h.1]; omega), h.1] at he
    by_cases hz : i - xs.length = 0
    · rw [hz] at hy he
      simp only [List.getElem?_cons_zero, Option.some.injEq] at hy he
      subst hy; subst he
      exact ⟨h1, h2⟩
    · obtain ⟨k, hk⟩ : ∃ k, i - xs.length = k + 1 := ⟨i - xs.length - 1, by omega⟩
      rw [hk] at hy
      simp at hy

theorem exactInit_spec {tv : List (Term × List Int)} (hf : Fine tv) : ∀ (ys xs : List (PhrasePart Term)) (E : List Tvpe), FitAll tv xs E → E.Pairwise (fun a b => a.pos ≤ b.pos) →
    (∀ p, At tv (xs ++ ys) p → Common E p) →
    ∃ o, exactInit tv ys E = .ok o ∧ (o = none → ∀ p, ¬ At tv (xs ++ ys) p) ∧
      ∀ E', o = some E' → FitAll tv (xs ++ ys) E' ∧ E'.Pairwise (fun a b => a.pos ≤ b.pos) ∧ ∀ p, At tv (xs ++ ys) p → Common E' p
  | [], xs, E, h1, h2, h3 => ⟨some E, rfl, (fun h => by cases h), fun E' he => by cases he; rw [List.append_nil] at *; exact ⟨h1, h2, h3⟩⟩
  | y :: ys, xs, E, h1, h2, h3 => by
    obtain ⟨o, g1, g2, g3⟩ := getTvpe_spec hf y
    rw [exactInit, g1, Res.ok_bind]
    have happ : xs ++ y :: ys = (xs ++ [y]) ++ ys := by simp
    cases o with
    | none =>
      refine ⟨none, rfl, fun _ p hp => ?_, fun E' h => by cases h⟩
      exact g2 rfl _ (hp y (by simp))
    | some t =>
      obtain ⟨k1, k2, k3, k4⟩ := g3 t rfl
      -- the position of an occurrence is among those of the new enumerator
      have hall : ∀ p, At tv (xs ++ y :: ys) p → p ∈ rest t := by
        intro p hp
        have h4 := hp y (by simp)
        rw [← k4.offset] at h4
        have h5 := (k4.mem _).2 h4
        unfold rest
        rw [k1, List.drop_zero]
        exact List.mem_map.2 ⟨_, h5, by omega⟩
      simp only
      cases hl : E.getLast? with
      | none =>
        simp only
        have hE : E = [] := List.getLast?_eq_none_iff.1 hl
        rcases next_spec k3 with ⟨t', n1, n2, n3, n4, _⟩ | ⟨t', n1, n2, _⟩
        · rw [n1]
          simp only [if_true]
          obtain ⟨o, m1, m2, m3⟩ := exactInit_spec hf ys (xs ++ [y]) (E ++ [t']) (h1.snoc n2 (k4.same n3)) (by rw [hE]; exact List.pairwise_singleton ..) (by
            intro p hp x hx
            rw [← happ] at hp
            rw [hE, List.nil_append, List.mem_singleton] at hx
            rw [hx, n4]
            exact hall p hp)
          rw [← happ] at m2 m3
          exact ⟨o, m1, m2, m3⟩
        · exfalso
          unfold rest at n2
          rw [k1, List.drop_zero, List.map_eq_nil_iff] at n2
          exact k2 n2
      | some prev =>
        simp only
        have hpm : prev ∈ E := List.mem_of_getLast? hl
        have hlast : ∀ e ∈ E, e.pos ≤ prev.pos := by
          intro e he
          obtain ⟨zs, hzs⟩ := List.getLast?_eq_some_iff.mp hl
          rw [hzs] at he h2
          rw [List.pairwise_append] at h2
          rcases List.mem_append.1 he with h4 | h4
          · exact h2.2.2 e h4 prev (by simp)
          · rw [List.mem_singleton.1 h4]; omega
        rcases skipTo_spec k3 prev.pos with ⟨t', n1, n2, n3, n4, n5, n6, n7⟩ | ⟨t', n1, n2⟩
        · rw [n1]
          simp only [if_true]
          obtain ⟨o, m1, m2, m3⟩ := exactInit_spec hf ys (xs ++ [y]) (E ++ [t']) (h1.snoc n2 (k4.same n3)) (by
              rw [List.pairwise_append]
              refine ⟨h2, List.pairwise_singleton .., fun a ha b hb => ?_⟩
              rw [List.mem_singleton.1 hb]
              have := hlast a ha
              omega) (by
            intro p hp x hx
            rw [← happ] at hp
            rcases List.mem_append.1 hx with hx | hx
            · exact h3 p hp x hx
            · rw [List.mem_singleton.1 hx]
              exact n7 p (hall p hp) ((h1.on hpm).le_rem (h3 p hp prev hpm)))
          rw [← happ] at m2 m3
          exact ⟨o, m1, m2, m3⟩
        · rw [n1]
          refine ⟨none, rfl, fun _ p hp => ?_, fun E' h => by cases h⟩
          have h4 := n2 p (hall p hp)
          have h5 := (h1.on hpm).le_rem (h3 p hp prev hpm)
          omega

/-- `qs` sorts the parts of a phrase by their offsets. -/
def SortsParts (qs : List (PhrasePart Term) → List (PhrasePart Term)) : Prop :=
  ∀ l, (qs l).Perm l ∧ (qs l).Pairwise fun a b => a.offset ≤ b.offset

theorem exactMatch_spec {qs : List (PhrasePart Term) → List (PhrasePart Term)} (hqs : SortsParts qs) {tv : List (Term × List Int)} (hf : Fine tv) {parts : List (PhrasePart Term)} (hne : parts ≠ []) (mv : MV) :
    ∃ mv' L, exactMatch qs tv parts mv = .ok mv' ∧ Added mv mv' L ∧ ∃ x ∈ parts, ∃ y ∈ parts, (∀ z ∈ parts, x.offset ≤ z.offset ∧ z.offset ≤ y.offset) ∧
      ∀ a b, (a, b) ∈ L ↔ ∃ p, At tv parts p ∧ a = p + x.offset ∧ b = p + y.offset := by
  obtain ⟨hperm, hsort⟩ := hqs parts
  have hne' : qs parts ≠ [] := fun h => hne (by rw [h] at hperm; exact hperm.symm.eq_nil)
  have hat : ∀ p, At tv (qs parts) p ↔ At tv parts p := fun p => ⟨fun h x hx => h x (hperm.mem_iff.2 hx), fun h x hx => h x (hperm.mem_iff.1 hx)⟩
  -- the first and the last part
  obtain ⟨x, xs, hxs⟩ := List.exists_cons_of_ne_nil hne'
  obtain ⟨ys, y, hys⟩ : ∃ ys y, qs parts = ys ++ [y] := by
    rcases List.eq_nil_or_concat (qs parts) with h | ⟨l, b, h⟩
    · exact absurd h hne'
    · exact ⟨l, b, by rw [h]; simp⟩
  have hxm : x ∈ parts := hperm.mem_iff.1 (by rw [hxs]; exact List.mem_cons_self ..)
  have hym : y ∈ parts := hperm.mem_iff.1 (by rw [hys]; simp)
  have hmin : ∀ z ∈ parts, x.offset ≤ z.offset := by
    intro z hz
    have := hperm.mem_iff.2 hz
    rw [hxs] at this hsort
    rcases List.mem_cons.1 this with rfl | h
    · omega
    · exact (List.pairwise_cons.1 hsort).1 z h
  have hmax : ∀ z ∈ parts, z.offset ≤ y.offset := by
    intro z hz
    have := hperm.mem_iff.2 hz
    rw [hys] at this hsort
    rw [List.pairwise_append] at hsort
    rcases List.mem_append.1 this with h | h
    · exact hsort.2.2 z h y (by simp)
    · rw [List.mem_singleton.1 h]; omega
  obtain ⟨o, g1, g2, g3⟩ := exactInit_spec hf (qs parts) [] [] ⟨rfl, by simp⟩ List.Pairwise.nil (fun p _ t ht => by cases ht)
  rw [List.nil_append] at g2 g3
  rw [exactMatch, g1, Res.ok_bind, if_neg hne]
  cases o with
  | none =>
    refine ⟨mv, [], rfl, Added.refl mv, x, hxm, y, hym, fun z hz => ⟨hmin z hz, hmax z hz⟩, fun a b => ⟨(fun h => by cases h), ?_⟩⟩
    rintro ⟨p, hp, _⟩
    exact absurd ((hat p).2 hp) (g2 rfl p)
  | some E =>
    obtain ⟨k1, k2, k3⟩ := g3 E rfl
    have hlen : E.length = (qs parts).length := k1.1
    have hpos : 0 < E.length := by rw [hlen, hxs]; simp
    have h0 : E[0]? = some E[0] := List.getElem?_eq_getElem hpos
    have hl : E[E.length - 1]? = some E[E.length - 1] := List.getElem?_eq_getElem (by omega)
    have o1 := (k1.2 0 x _ (by rw [hxs]; rfl) h0).2.offset
    have o2 := (k1.2 (E.length - 1) y _ (by rw [hlen, hys]; simp) hl).2.offset
    obtain ⟨mv', L, m1, m2, m3⟩ := exactGo_spec x.offset y.offset (left E + 1) E 0 mv (by omega) hpos (fun t ht => k1.on ht) (by simpa [rotL] using k2) ⟨_, h0, o1⟩ ⟨_, hl, o2⟩
    rw [show (0 + E.length - 1) % E.length = E.length - 1 by rw [Nat.zero_add]; exact Nat.mod_eq_of_lt (by omega)] at m1
    refine ⟨mv', L, m1, m2, x, hxm, y, hym, fun z hz => ⟨hmin z hz, hmax z hz⟩, fun a b => ?_⟩
    rw [m3]
    constructor
    · rintro ⟨p, hp, h⟩
      refine ⟨p, (hat p).1 fun z hz => ?_, h⟩
      obtain ⟨i, hi⟩ := List.getElem?_of_mem hz
      have hlt := (List.getElem?_eq_some_iff.1 hi).1
      have he : E[i]? = some E[i] := List.getElem?_eq_getElem (by omega)
      have hfit := (k1.2 i z _ hi he).2
      have := mem_rem (hp _ (List.mem_of_getElem? he))
      rw [hfit.offset] at this
      exact (hfit.mem _).1 this
    · rintro ⟨p, hp, h⟩
      exact ⟨p, k3 p ((hat p).2 hp), h⟩

end Ferret.Marks
