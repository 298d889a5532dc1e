import Verif.Model.Marks
import Verif.Lemmas.MultiTermEnum

/-! Terms of a term vector, and the queries that mark words. -/

namespace Ferret.Marks

open Ferret.Spec
open Ferret.Expand (Term Range Scan strcmp strLt strLt_iff)
open Ferret.MV (MV MR mvAdd)

theorem cmp_neg {s t : Term} : strcmp s t < 0 ↔ s < t := by
  unfold strcmp
  by_cases h : strLt s t = true
  · simp [h, (strLt_iff s t).1 h]
  · simp only [h]
    constructor
    · intro h2
      split at h2 <;> first | contradiction | (split at h2 <;> omega)
    · intro h2
      exact absurd ((strLt_iff s t).2 h2) h

theorem cmp_pos {s t : Term} : strcmp s t > 0 ↔ t < s := by
  unfold strcmp
  by_cases h : strLt s t = true
  · have := (strLt_iff s t).1 h
    simp only [h, if_true]
    exact ⟨fun h => by omega, fun h2 => absurd this (List.lt_asymm h2)⟩
  · rw [if_neg h]
    by_cases h' : strLt t s = true
    · simp [h', (strLt_iff t s).1 h']
    · rw [if_neg h']
      exact ⟨fun h => by omega, fun h2 => absurd ((strLt_iff t s).2 h2) h'⟩

theorem cmp_zero {s t : Term} : strcmp s t = 0 ↔ s = t := by
  constructor
  · intro h
    have h1 : ¬ s < t := fun h2 => by have := cmp_neg.2 h2; omega
    have h2 : ¬ t < s := fun h2 => by have := cmp_pos.2 h2; omega
    exact List.le_antisymm (List.not_lt.1 h2) (List.not_lt.1 h1)
  · rintro rfl
    have h1 : ¬ strcmp s s < 0 := fun h => List.lt_irrefl s (cmp_neg.1 h)
    have h2 : ¬ strcmp s s > 0 := fun h => List.lt_irrefl s (cmp_pos.1 h)
    omega

/-- The terms are in order. -/
def InOrder (terms : List (Term × List Int)) : Prop := terms.Pairwise fun a b => a.1 < b.1

theorem InOrder.get {terms : List (Term × List Int)} (h : InOrder terms) {i j : Nat} {a b : Term × List Int} (hi : terms[i]? = some a) (hj : terms[j]? = some b) (hij : i < j) : a.1 < b.1 := by
  obtain ⟨h1, rfl⟩ := List.getElem?_eq_some_iff.1 hi
  obtain ⟨h2, rfl⟩ := List.getElem?_eq_some_iff.1 hj
  exact List.pairwise_iff_getElem.1 h i j h1 h2 hij

theorem scanLoop_spec {terms : List (Term × List Int)} (h : InOrder terms) (t : Term) : ∀ (fuel lo : Nat) (hi : Int), hi + 1 - lo < fuel → hi < terms.length → lo ≤ terms.length → (lo : Int) ≤ hi + 1 →
    (∀ (i : Nat) x, terms[i]? = some x → (i < lo → x.1 < t) ∧ (hi < (i : Int) → t < x.1)) →
    ∃ r, scanLoop terms t fuel lo hi = .ok r ∧ r ≤ terms.length ∧ ∀ i x, terms[i]? = some x → (i < r → x.1 < t) ∧ (r ≤ i → ¬ x.1 < t) := by
  intro fuel
  induction fuel with
  | zero => intro lo hi h1 h2 h3 h4; omega
  | succ n ih =>
    intro lo hi h1 h2 h3 h4 hinv
    rw [scanLoop]
    by_cases hc : hi ≥ (lo : Int)
    · rw [if_pos hc]
      simp only
      generalize hm : (((lo : Int) + hi) / 2).toNat = mid
      have hmid : (lo : Int) ≤ mid ∧ (mid : Int) ≤ hi := by omega
      have hlt : mid < terms.length := by omega
      rw [List.getElem?_eq_getElem hlt, Res.ofOption, Res.ok_bind]
      have hget : terms[mid]? = some terms[mid] := List.getElem?_eq_getElem hlt
      by_cases c1 : strcmp t terms[mid].1 < 0
      · rw [if_pos c1]
        have c1' := cmp_neg.1 c1
        apply ih _ _ (by omega) (by omega) h3 (by omega)
        intro i x hx
        refine ⟨(hinv i x hx).1, fun hi' => ?_⟩
        by_cases hi2 : i = mid
        · subst hi2; rw [hget] at hx; cases hx; exact c1'
        · exact List.lt_trans c1' (h.get hget hx (by omega))
      · rw [if_neg c1]
        by_cases c2 : strcmp t terms[mid].1 > 0
        · rw [if_pos c2]
          have c2' := cmp_pos.1 c2
          apply ih _ _ (by omega) (by omega) (by omega) (by omega)
          intro i x hx
          refine ⟨fun hi' => ?_, (hinv i x hx).2⟩
          by_cases hi2 : i = mid
          · subst hi2; rw [hget] at hx; cases hx; exact c2'
          · exact List.lt_trans (h.get hx hget (by omega)) c2'
        · rw [if_neg c2]
          have he : t = terms[mid].1 := cmp_zero.1 (by omega)
          refine ⟨mid, rfl, by omega, fun i x hx => ⟨fun hi' => by rw [he]; exact h.get hx hget hi', fun hi' hlt2 => ?_⟩⟩
          by_cases hi2 : i = mid
          · subst hi2; rw [hget] at hx; cases hx; rw [he] at hlt2; exact List.lt_irrefl _ hlt2
          · have := h.get hget hx (by omega)
            rw [he] at hlt2
            exact List.lt_asymm hlt2 this
    · rw [if_neg hc]
      exact ⟨lo, rfl, h3, fun i x hx => ⟨(hinv i x hx).1, fun hi' hlt2 => List.lt_asymm hlt2 ((hinv i x hx).2 (by omega))⟩⟩

theorem scanTo_spec {terms : List (Term × List Int)} (h : InOrder terms) (t : Term) :
    ∃ r, scanTo terms t = .ok r ∧ r ≤ terms.length ∧ ∀ i x, terms[i]? = some x → (i < r → x.1 < t) ∧ (r ≤ i → ¬ x.1 < t) := by
  apply scanLoop_spec h t _ _ _ (by omega) (by omega) (by omega) (by omega)
  intro i x hx
  have := (List.getElem?_eq_some_iff.1 hx).1
  exact ⟨fun h => by omega, fun h => by omega⟩

theorem getTerm_spec {terms : List (Term × List Int)} (h : InOrder terms) (t : Term) :
    ∃ o, getTerm terms t = .ok o ∧ ∀ ps, o = some ps ↔ (t, ps) ∈ terms := by
  obtain ⟨r, h1, h2, h3⟩ := scanTo_spec h t
  rw [getTerm, h1, Res.ok_bind]
  have hno : ∀ ps, (t, ps) ∈ terms → terms[r]? = some (t, ps) := by
    intro ps hm
    obtain ⟨i, hi⟩ := List.getElem?_of_mem hm
    have h4 := h3 i _ hi
    have hir : r ≤ i := Nat.le_of_not_lt fun h5 => List.lt_irrefl _ (h4.1 h5)
    by_cases he : r = i
    · rw [he]; exact hi
    · have hlt : r < terms.length := by have := (List.getElem?_eq_some_iff.1 hi).1; omega
      have hg : terms[r]? = some terms[r] := List.getElem?_eq_getElem hlt
      have h5 := h.get hg hi (by omega)
      exact absurd h5 ((h3 r _ hg).2 (Nat.le_refl _))
  cases hr : terms[r]? with
  | none =>
    refine ⟨none, rfl, fun ps => ⟨(fun h => by cases h), fun hm => ?_⟩⟩
    rw [hno ps hm] at hr; cases hr
  | some x =>
    simp only
    by_cases hx : strcmp t x.1 = 0
    · rw [if_pos hx]
      have hx' := cmp_zero.1 hx
      refine ⟨some x.2, rfl, fun ps => ⟨fun hp => ?_, fun hm => ?_⟩⟩
      · cases hp; rw [hx']; exact List.mem_of_getElem? hr
      · rw [hno ps hm] at hr; cases hr; rfl
    · rw [if_neg hx]
      refine ⟨none, rfl, fun ps => ⟨(fun h => by cases h), fun hm => ?_⟩⟩
      rw [hno ps hm] at hr; cases hr
      exact absurd (cmp_zero.2 rfl) hx

/-! ### Adding ranges -/

/-- `mv'` is `mv` with the ranges `L` added. -/
def Added (mv mv' : MV) (L : List (Int × Int)) : Prop :=
  mv' = ⟨mv.matches_ ++ L.map fun r => ⟨r.1, r.2, 1⟩, mv.size + L.length⟩

theorem Added.refl (mv : MV) : Added mv mv [] := by simp [Added]

theorem Added.trans {a b c : MV} {L M : List (Int × Int)} (h1 : Added a b L) (h2 : Added b c M) : Added a c (L ++ M) := by
  unfold Added at *
  subst h1
  rw [h2]
  simp [Nat.add_assoc]

theorem added_one (mv : MV) (a b : Int) : Added mv (mvAdd mv a b) [(a, b)] := rfl

theorem addAll_spec : ∀ (ps : List Int) (mv : MV), Added mv (addAll mv ps) (ps.map fun p => (p, p))
  | [], mv => Added.refl mv
  | p :: ps, mv => (added_one mv p p).trans (addAll_spec ps (mvAdd mv p p))

/-- The word `t` is at position `p` of a term vector. -/
def wordsOf (terms : List (Term × List Int)) (t : Term) (p : Int) : Prop := ∃ ps, (t, ps) ∈ terms ∧ p ∈ ps

theorem termMatch_spec {terms : List (Term × List Int)} (h : InOrder terms) (t : Term) (mv : MV) :
    ∃ mv' L, termMatch terms t mv = .ok mv' ∧ Added mv mv' L ∧ ∀ a b, (a, b) ∈ L ↔ a = b ∧ wordsOf terms t a := by
  obtain ⟨o, h1, h2⟩ := getTerm_spec h t
  rw [termMatch, h1, Res.ok_bind]
  cases o with
  | none =>
    refine ⟨mv, [], rfl, Added.refl mv, fun a b => ⟨(fun h => by cases h), ?_⟩⟩
    rintro ⟨_, ps, hm, _⟩
    have := (h2 ps).2 hm
    cases this
  | some ps =>
    refine ⟨_, _, rfl, addAll_spec ps mv, fun a b => ?_⟩
    have hps := (h2 ps).1 rfl
    simp only [List.mem_map, Prod.mk.injEq]
    constructor
    · rintro ⟨p, hp, rfl, rfl⟩; exact ⟨rfl, ps, hps, hp⟩
    · rintro ⟨rfl, ps', hm, hp⟩
      have := (h2 ps').2 hm
      cases this
      exact ⟨a, hp, rfl, rfl⟩

theorem multiMatch_spec {terms : List (Term × List Int)} (h : InOrder terms) : ∀ (ts : List Term) (mv : MV),
    ∃ mv' L, multiMatch terms ts mv = .ok mv' ∧ Added mv mv' L ∧ ∀ a b, (a, b) ∈ L ↔ a = b ∧ ∃ t ∈ ts, wordsOf terms t a
  | [], mv => ⟨mv, [], rfl, Added.refl mv, fun a b => by simp⟩
  | t :: ts, mv => by
    obtain ⟨m1, L1, h1, h2, h3⟩ := termMatch_spec h t mv
    obtain ⟨m2, L2, g1, g2, g3⟩ := multiMatch_spec h ts m1
    refine ⟨m2, L1 ++ L2, by rw [multiMatch, h1, Res.ok_bind, g1], h2.trans g2, fun a b => ?_⟩
    rw [List.mem_append, h3, g3]
    constructor
    · rintro (⟨rfl, hw⟩ | ⟨rfl, t', ht, hw⟩)
      · exact ⟨rfl, t, List.mem_cons_self .., hw⟩
      · exact ⟨rfl, t', List.mem_cons_of_mem _ ht, hw⟩
    · rintro ⟨rfl, t', ht, hw⟩
      rcases List.mem_cons.1 ht with rfl | ht
      · exact Or.inl ⟨rfl, hw⟩
      · exact Or.inr ⟨rfl, t', ht, hw⟩

/-! ### Ranges -/

theorem rangeGo_spec (upper : Option Term) (incl : Bool) : ∀ (xs : List (Term × List Int)), InOrder xs → ∀ mv : MV,
    ∃ L, Added mv (rangeGo upper (if incl then 1 else 0) xs mv) L ∧
      ∀ a b, (a, b) ∈ L ↔ a = b ∧ ∃ t, (∀ u, upper = some u → t < u ∨ (incl = true ∧ t = u)) ∧ wordsOf xs t a
  | [], _, mv => ⟨[], Added.refl mv, fun a b => by simp [wordsOf]⟩
  | x :: xs, h, mv => by
    have hx := List.pairwise_cons.1 h
    -- the bound
    have hbound : pastUpper upper (if incl then 1 else 0) x.1 = true ↔
        ¬ ∀ u, upper = some u → x.1 < u ∨ (incl = true ∧ x.1 = u) := by
      unfold pastUpper
      cases upper with
      | none => simp
      | some u =>
        simp only [decide_eq_true_eq, Option.some.injEq]
        constructor
        · intro hge hall
          rcases hall u rfl with hlt | ⟨hi, he⟩
          · have := cmp_neg.2 hlt; split at hge <;> omega
          · subst hi; have := cmp_zero.2 he; simp at hge; omega
        · intro hn
          have h1 : ¬ x.1 < u := fun hlt => hn fun u' he => by cases he; exact Or.inl hlt
          have h2 : ¬ strcmp x.1 u < 0 := fun hc => h1 (cmp_neg.1 hc)
          cases incl with
          | false => simp; omega
          | true =>
            have h3 : strcmp x.1 u ≠ 0 := fun hc => hn fun u' he => by cases he; exact Or.inr ⟨rfl, cmp_zero.1 hc⟩
            simp; omega
    rw [rangeGo]
    by_cases hb : pastUpper upper (if incl then 1 else 0) x.1 = true
    · rw [if_pos hb]
      have hb' := hbound.1 hb
      refine ⟨[], Added.refl mv, fun a b => ⟨(fun h => by cases h), ?_⟩⟩
      rintro ⟨_, t, ht, ps, hm, _⟩
      exfalso
      apply hb'
      intro u hu
      rcases List.mem_cons.1 hm with he | hm
      · rw [← he]; exact ht u hu
      · have hlt := hx.1 _ hm
        rcases ht u hu with h1 | ⟨_, h1⟩
        · exact Or.inl (List.lt_trans hlt h1)
        · left; rw [← h1]; exact hlt
    · rw [if_neg hb]
      have hb' : ∀ u, upper = some u → x.1 < u ∨ (incl = true ∧ x.1 = u) := Classical.byContradiction fun hn => hb (hbound.2 hn)
      obtain ⟨L, h1, h2⟩ := rangeGo_spec upper incl xs hx.2 (addAll mv x.2)
      refine ⟨_, (addAll_spec x.2 mv).trans h1, fun a b => ?_⟩
      rw [List.mem_append, h2]
      simp only [List.mem_map, Prod.mk.injEq]
      constructor
      · rintro (⟨p, hp, rfl, rfl⟩ | ⟨rfl, t, ht, ps, hm, hp⟩)
        · exact ⟨rfl, x.1, hb', x.2, List.mem_cons_self .., hp⟩
        · exact ⟨rfl, t, ht, ps, List.mem_cons_of_mem _ hm, hp⟩
      · rintro ⟨rfl, t, ht, ps, hm, hp⟩
        rcases List.mem_cons.1 hm with he | hm
        · left; rw [← he]; exact ⟨a, hp, rfl, rfl⟩
        · exact Or.inr ⟨rfl, t, ht, ps, hm, hp⟩

theorem rangeStart_spec {terms : List (Term × List Int)} (h : InOrder terms) (r : Range) :
    ∃ n, rangeStart terms r = .ok n ∧ ∀ i x, terms[i]? = some x → (n ≤ i ↔ ∀ l, r.lower = some l → l < x.1 ∨ (r.includeLower = true ∧ x.1 = l)) := by
  unfold rangeStart
  cases hl : r.lower with
  | none => exact ⟨0, rfl, fun i x _ => by simp⟩
  | some l =>
    obtain ⟨n, h1, h2, h3⟩ := scanTo_spec h l
    simp only
    rw [h1, Res.ok_bind]
    have hkey : ∀ i x, terms[i]? = some x → (n ≤ i ↔ l < x.1 ∨ x.1 = l) := by
      intro i x hx
      constructor
      · intro hi
        have h4 := (h3 i x hx).2 hi
        by_cases he : x.1 = l
        · exact Or.inr he
        · left
          exact Classical.byContradiction fun h5 => he (List.le_antisymm (List.not_lt.1 h5) (List.not_lt.1 h4))
      · intro ho
        refine Nat.le_of_not_lt fun hlt => ?_
        have h4 := (h3 i x hx).1 hlt
        rcases ho with h5 | h5
        · exact List.lt_asymm h4 h5
        · rw [h5] at h4; exact List.lt_irrefl _ h4
    cases hn : terms[n]? with
    | none =>
      refine ⟨n, rfl, fun i x hx => ?_⟩
      have h5 : ¬ n ≤ i := fun hni => by
        have := (List.getElem?_eq_some_iff.1 hx).1
        have := List.getElem?_eq_none_iff.1 hn
        omega
      constructor
      · intro h6; exact absurd h6 h5
      · intro h6
        refine (hkey i x hx).2 ?_
        rcases h6 l rfl with h7 | ⟨_, h7⟩
        · exact Or.inl h7
        · exact Or.inr h7
    | some y =>
      simp only
      by_cases hc : r.includeLower = false ∧ strcmp l y.1 = 0
      · rw [if_pos hc]
        have hy := cmp_zero.1 hc.2
        refine ⟨n + 1, rfl, fun i x hx => ?_⟩
        constructor
        · intro hi l' hl'
          cases hl'
          left
          rw [hy]
          exact h.get hn hx (by omega)
        · intro h6
          rcases h6 l rfl with h7 | ⟨h7, _⟩
          · have := (hkey i x hx).2 (Or.inl h7)
            have hne : n ≠ i := fun he => by subst he; rw [hn] at hx; cases hx; rw [hy] at h7; exact List.lt_irrefl _ h7
            omega
          · rw [hc.1] at h7; cases h7
      · rw [if_neg hc]
        refine ⟨n, rfl, fun i x hx => ?_⟩
        rw [hkey i x hx]
        constructor
        · rintro h6 l' hl'
          cases hl'
          rcases h6 with h7 | h7
          · exact Or.inl h7
          · cases hi : r.includeLower with
            | true => exact Or.inr ⟨rfl, h7⟩
            | false =>
              exfalso
              apply hc
              refine ⟨hi, ?_⟩
              have h8 := (hkey i x hx).2 (Or.inr h7)
              have h9 := (hkey n y hn).1 (Nat.le_refl _)
              rcases h9 with h9 | h9
              · have : n ≠ i := fun he => by subst he; rw [hn] at hx; cases hx; rw [h7] at h9; exact List.lt_irrefl _ h9
                have h10 := h.get hn hx (by omega)
                rw [h7] at h10
                exact absurd h9 (List.lt_asymm h10)
              · exact cmp_zero.2 h9.symm
        · intro h6
          rcases h6 l rfl with h7 | ⟨_, h7⟩
          · exact Or.inl h7
          · exact Or.inr h7

theorem rangeMatch_spec {terms : List (Term × List Int)} (h : InOrder terms) (r : Range) (mv : MV) :
    ∃ mv' L, rangeMatch terms r mv = .ok mv' ∧ Added mv mv' L ∧ ∀ a b, (a, b) ∈ L ↔ a = b ∧ ∃ t, Between r t ∧ wordsOf terms t a := by
  obtain ⟨n, h1, h2⟩ := rangeStart_spec h r
  have hd : InOrder (terms.drop n) := h.sublist (List.drop_sublist ..)
  obtain ⟨L, g1, g2⟩ := rangeGo_spec r.upper r.includeUpper (terms.drop n) hd mv
  refine ⟨_, L, by rw [rangeMatch, h1, Res.ok_bind], g1, fun a b => ?_⟩
  rw [g2]
  constructor
  · rintro ⟨rfl, t, ht, ps, hm, hp⟩
    obtain ⟨i, hi⟩ := List.getElem?_of_mem hm
    rw [List.getElem?_drop] at hi
    exact ⟨rfl, t, ⟨(h2 _ _ hi).1 (by omega), ht⟩, ps, List.mem_of_getElem? hi, hp⟩
  · rintro ⟨rfl, t, ⟨hl, hu⟩, ps, hm, hp⟩
    obtain ⟨i, hi⟩ := List.getElem?_of_mem hm
    have := (h2 _ _ hi).2 hl
    refine ⟨rfl, t, hu, ps, ?_, hp⟩
    exact List.mem_of_getElem? (i := i - n) (by rw [List.getElem?_drop, show n + (i - n) = i by omega]; exact hi)

/-! ### Ranges of numbers -/

theorem numGo_spec (scan : Scan) (cond : Int → Bool) : ∀ (xs : List (Term × List Int)) (len : Nat) (mv : MV),
    (∀ x ∈ xs, scan x.1 = none → x.1.length ≠ len ∧ ∀ y ∈ xs, ∀ v n, scan y.1 = some (v, n) → x.1.length ≠ n) →
    ∃ mv' L, numGo scan cond len xs mv = .ok mv' ∧ Added mv mv' L ∧
      ∀ a b, (a, b) ∈ L ↔ a = b ∧ ∃ t v, IsNum scan t v ∧ cond v = true ∧ wordsOf xs t a
  | [], _, mv, _ => ⟨mv, [], rfl, Added.refl mv, fun a b => by simp [wordsOf]⟩
  | x :: xs, len, mv, h => by
    have hstep : ∀ t a, wordsOf (x :: xs) t a ↔ (t = x.1 ∧ a ∈ x.2) ∨ wordsOf xs t a := by
      intro t a
      constructor
      · rintro ⟨ps, hm, hp⟩
        rcases List.mem_cons.1 hm with he | hm
        · left; rw [← he]; exact ⟨rfl, hp⟩
        · exact Or.inr ⟨ps, hm, hp⟩
      · rintro (⟨rfl, hp⟩ | ⟨ps, hm, hp⟩)
        · exact ⟨x.2, List.mem_cons_self .., hp⟩
        · exact ⟨ps, List.mem_cons_of_mem _ hm, hp⟩
    rw [numGo]
    cases hs : scan x.1 with
    | none =>
      have hx := h x (List.mem_cons_self ..) hs
      simp only
      rw [if_neg hx.1]
      obtain ⟨mv', L, h1, h2, h3⟩ := numGo_spec scan cond xs len mv fun y hy hn => by
        have := h y (List.mem_cons_of_mem _ hy) hn
        exact ⟨this.1, fun z hz => this.2 z (List.mem_cons_of_mem _ hz)⟩
      refine ⟨mv', L, h1, h2, fun a b => ?_⟩
      rw [h3]
      constructor
      · rintro ⟨rfl, t, v, hn, hc, hw⟩; exact ⟨rfl, t, v, hn, hc, (hstep t a).2 (Or.inr hw)⟩
      · rintro ⟨rfl, t, v, hn, hc, hw⟩
        rcases (hstep t a).1 hw with ⟨rfl, _⟩ | hw
        · rw [IsNum, hs] at hn; cases hn
        · exact ⟨rfl, t, v, hn, hc, hw⟩
    | some vn =>
      obtain ⟨v, n⟩ := vn
      simp only
      obtain ⟨mv', L, h1, h2, h3⟩ := numGo_spec scan cond xs n (if x.1.length = n ∧ cond v = true then addAll mv x.2 else mv) fun y hy hn => by
        have := h y (List.mem_cons_of_mem _ hy) hn
        exact ⟨this.2 x (List.mem_cons_self ..) v n hs, fun z hz => this.2 z (List.mem_cons_of_mem _ hz)⟩
      by_cases hc : x.1.length = n ∧ cond v = true
      · rw [if_pos hc] at h1 h2 ⊢
        refine ⟨mv', _, h1, (addAll_spec x.2 mv).trans h2, fun a b => ?_⟩
        rw [List.mem_append, h3]
        simp only [List.mem_map, Prod.mk.injEq]
        constructor
        · rintro (⟨p, hp, rfl, rfl⟩ | ⟨rfl, t, v, hn, hc, hw⟩)
          · exact ⟨rfl, x.1, v, by rw [IsNum, hs, hc.1], hc.2, (hstep _ _).2 (Or.inl ⟨rfl, hp⟩)⟩
          · exact ⟨rfl, t, v, hn, hc, (hstep t a).2 (Or.inr hw)⟩
        · rintro ⟨rfl, t, v, hn, hc, hw⟩
          rcases (hstep t a).1 hw with ⟨rfl, hp⟩ | hw
          · exact Or.inl ⟨a, hp, rfl, rfl⟩
          · exact Or.inr ⟨rfl, t, v, hn, hc, hw⟩
      · rw [if_neg hc] at h1 h2 ⊢
        refine ⟨mv', L, h1, h2, fun a b => ?_⟩
        rw [h3]
        constructor
        · rintro ⟨rfl, t, v, hn, hc, hw⟩; exact ⟨rfl, t, v, hn, hc, (hstep t a).2 (Or.inr hw)⟩
        · rintro ⟨rfl, t, w, hn, hcw, hw⟩
          rcases (hstep t a).1 hw with ⟨rfl, _⟩ | hw
          · rw [IsNum, hs] at hn; cases hn; exact absurd ⟨rfl, hcw⟩ hc
          · exact ⟨rfl, t, w, hn, hcw, hw⟩

end Ferret.Marks
