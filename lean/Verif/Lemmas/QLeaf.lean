import Verif.Lemmas.QParse

/-!
What words, phrases and ranges of a query come to in given fields: the actions of the parser for them, and
that they are defined for tame texts.
-/

namespace Ferret.QP
open Ferret.Spec

/-- The phrase built of a first place and what follows it. -/
def phraseRest : Ph → List QSpot → Res Ph
  | ph, [] => .ok ph
  | ph, .next w :: ss => phraseRest (phAdd ph (some w)) ss
  | ph, .gap :: ss => phraseRest (phAdd ph none) ss
  | ph, .alt w :: ss => do
    let ph ← phMulti ph w
    phraseRest ph ss

/-- The phrase built of a first place and what follows it. -/
def phraseOf (first : Option QWord) (spots : List QSpot) : Res Ph := phraseRest (phFirst first) spots

/-- A range in one field. -/
def rangeIn (cfg : Cfg) (qlen : Nat) (incLo incHi : Bool) (f : Fld) (a : Bound × Bound) :
    Res (Option Qry × (Bound × Bound)) := do
  let (q, l, h) ← getRQ cfg qlen f a.1 a.2 incLo incHi
  return (q, (l, h))

/-- What a leaf comes to in given fields. -/
def leafQ (cfg : Cfg) (F : List Fld) : QLeaf → Res (Option Qry)
  | .word w => flds F (fun f (_ : Unit) => .ok (getTermQ cfg f w, ())) ()
  | .fuzzy w sim => flds F (fun f (_ : Unit) => .ok (getFuzzyQ cfg f w sim, ())) ()
  | .wild w => flds F (fun f a => getWildQ cfg 0 false f a) w
  | .phrase first spots slop => do
    let ph ← phraseOf first spots
    flds F (fun f a => getPhraseQuery cfg f a slop) ph
  | .noPhrase _ => .ok none
  | .between lo hi incLo incHi => flds F (rangeIn cfg 0 incLo incHi) (some (lo, false), some (hi, false))
  | .below hi inc _ => flds F (rangeIn cfg 0 false inc) (none, some (hi, false))
  | .above lo inc _ => flds F (rangeIn cfg 0 inc false) (some (lo, false), none)

/-- The query language as the parser understands it. -/
def lang (cfg : Cfg) : QLang where
  leaf F l := match leafQ cfg F l with
    | .ok q => q
    | _ => none
  known := cfg.allFields
  anyField := cfg.anyFields
  orDefault := cfg.orDefault

theorem lang_leaf {cfg : Cfg} {F : List Fld} {l : QLeaf} {q : Option Qry} (h : leafQ cfg F l = .ok q) :
    (lang cfg).leaf F l = q := by
  simp only [lang, h]

/-! ### Several fields -/

theorem fldsLoop_congr {α : Type} {g g' : Fld → α → Res (Option Qry × α)} (P : α → Prop)
    (h1 : ∀ f a, P a → g f a = g' f a) (h2 : ∀ f a q a', P a → g f a = .ok (q, a') → P a') :
    ∀ (F : List Fld) (a : α) (cs : List (Occ × Qry)), P a → fldsLoop g F a cs = fldsLoop g' F a cs := by
  intro F
  induction F with
  | nil => intro a cs _; rfl
  | cons f F ih =>
    intro a cs ha
    simp only [fldsLoop]
    rw [← h1 f a ha]
    cases e : g f a with
    | ok r => obtain ⟨q, a'⟩ := r; exact ih a' _ (h2 f a q a' ha e)
    | raise e => rfl
    | ub => rfl

theorem flds_congr {α : Type} {g g' : Fld → α → Res (Option Qry × α)} (P : α → Prop)
    (h1 : ∀ f a, P a → g f a = g' f a) (h2 : ∀ f a q a', P a → g f a = .ok (q, a') → P a') (F : List Fld)
    (a : α) (ha : P a) : flds F g a = flds F g' a := by
  match F with
  | [] => rfl
  | [f] => simp only [flds]; rw [h1 f a ha]
  | f :: f' :: F => simp only [flds]; rw [fldsLoop_congr P h1 h2 _ _ _ ha]

theorem fldsLoop_ok {α : Type} {g : Fld → α → Res (Option Qry × α)} (P : α → Prop)
    (h : ∀ f a, P a → ∃ q a', g f a = .ok (q, a') ∧ P a') :
    ∀ (F : List Fld) (a : α) (cs : List (Occ × Qry)), P a → ∃ r, fldsLoop g F a cs = .ok r := by
  intro F
  induction F with
  | nil => intro a cs _; exact ⟨_, rfl⟩
  | cons f F ih =>
    intro a cs ha
    obtain ⟨q, a', e, ha'⟩ := h f a ha
    obtain ⟨r, hr⟩ := ih a' (cs ++ (q.map (fun q => (Occ.should, q))).toList) ha'
    exact ⟨r, by simp only [fldsLoop]; rw [e]; exact hr⟩

theorem flds_ok {α : Type} {g : Fld → α → Res (Option Qry × α)} (P : α → Prop)
    (h : ∀ f a, P a → ∃ q a', g f a = .ok (q, a') ∧ P a') (F : List Fld) (a : α) (ha : P a) :
    ∃ q, flds F g a = .ok q := by
  match F with
  | [] => exact ⟨_, rfl⟩
  | [f] =>
    obtain ⟨q, a', e, -⟩ := h f a ha
    exact ⟨q, by simp only [flds]; rw [e]; rfl⟩
  | f :: f' :: F =>
    obtain ⟨r, hr⟩ := fldsLoop_ok P h (f :: f' :: F) a [] ha
    exact ⟨_, by simp only [flds]; rw [hr]; rfl⟩

/-- No undefined behaviour, and what may be raised. -/
theorem fldsLoop_raise {α : Type} {g : Fld → α → Res (Option Qry × α)} (P : α → Prop) (R : Prop)
    (h : ∀ f a, P a → (∃ q a', g f a = .ok (q, a') ∧ P a') ∨ ((∃ e, g f a = .raise e) ∧ R)) :
    ∀ (F : List Fld) (a : α) (cs : List (Occ × Qry)), P a →
      (∃ r, fldsLoop g F a cs = .ok r) ∨ ((∃ e, fldsLoop g F a cs = .raise e) ∧ R) := by
  intro F
  induction F with
  | nil => intro a cs _; exact Or.inl ⟨_, rfl⟩
  | cons f F ih =>
    intro a cs ha
    rcases h f a ha with ⟨q, a', e, ha'⟩ | ⟨⟨e, he⟩, hR⟩
    · simp only [fldsLoop]
      rw [e]
      exact ih a' _ ha'
    · exact Or.inr ⟨⟨e, by simp only [fldsLoop]; rw [he]; rfl⟩, hR⟩

theorem flds_raise {α : Type} {g : Fld → α → Res (Option Qry × α)} (P : α → Prop) (R : Prop)
    (h : ∀ f a, P a → (∃ q a', g f a = .ok (q, a') ∧ P a') ∨ ((∃ e, g f a = .raise e) ∧ R)) (F : List Fld)
    (a : α) (ha : P a) : (∃ q, flds F g a = .ok q) ∨ ((∃ e, flds F g a = .raise e) ∧ R) := by
  match F with
  | [] => exact Or.inl ⟨_, rfl⟩
  | [f] =>
    rcases h f a ha with ⟨q, a', e, -⟩ | ⟨⟨e, he⟩, hR⟩
    · exact Or.inl ⟨q, by simp only [flds]; rw [e]; rfl⟩
    · exact Or.inr ⟨⟨e, by simp only [flds]; rw [he]; rfl⟩, hR⟩
  | f :: f' :: F =>
    rcases fldsLoop_raise P R h (f :: f' :: F) a [] ha with ⟨r, hr⟩ | ⟨⟨e, he⟩, hR⟩
    · exact Or.inl ⟨_, by simp only [flds]; rw [hr]; rfl⟩
    · exact Or.inr ⟨⟨e, by simp only [flds]; rw [he]; rfl⟩, hR⟩

/-! ### Leaves are defined -/

theorem leafQ_word (cfg : Cfg) (F : List Fld) (w : QWord) : ∃ q, leafQ cfg F (.word w) = .ok q :=
  flds_ok (fun _ => True) (fun _ _ _ => ⟨_, _, rfl, trivial⟩) F () trivial

theorem leafQ_fuzzy (cfg : Cfg) (F : List Fld) (w : QWord) (s : Option QWord) :
    ∃ q, leafQ cfg F (.fuzzy w s) = .ok q :=
  flds_ok (fun _ => True) (fun _ _ _ => ⟨_, _, rfl, trivial⟩) F () trivial

theorem lowerStr_ok {cfg : Cfg} {w : QWord} (h : w.length ≤ 253) :
    lowerStr cfg 0 false w = .ok (w.map cfg.lower) := by
  unfold lowerStr
  rw [if_pos (by simp [maxWordSize]; omega)]

theorem leafQ_wild {cfg : Cfg} {F : List Fld} {w : QWord} (h : w.length ≤ 253) :
    ∃ q, leafQ cfg F (.wild w) = .ok q := by
  refine flds_ok (fun a => a.length ≤ 253) ?_ F w h
  intro f a ha
  have step : ∀ pat : List Char, pat.length ≤ 253 → ∃ q a',
      (if pat = ['*'] then (pure (some .all, pat) : Res (Option Qry × List Char))
      else if pat.getLast? = some '*' ∧ ¬ pat.dropLast.any (fun c => c == '*' || c == '?') then
        pure (some (.pre f pat.dropLast), pat)
      else pure (some (.wild f pat), pat)) = .ok (q, a') ∧ a'.length ≤ 253 := by
    intro pat hp
    split
    · exact ⟨_, _, rfl, hp⟩
    split
    · exact ⟨_, _, rfl, hp⟩
    · exact ⟨_, _, rfl, hp⟩
  unfold getWildQ
  by_cases hl : lowers cfg f = true
  · rw [if_pos hl, lowerStr_ok ha]
    exact step _ (by simpa using ha)
  · rw [if_neg hl]
    exact step _ ha

theorem getPhraseQuery_ok {cfg : Cfg} {slop : Option QWord} (h : ∀ w, slop = some w → (scanInt w).isSome)
    (f : Fld) (ph : Ph) : ∃ q ph', getPhraseQuery cfg f ph slop = .ok (q, ph') := by
  unfold getPhraseQuery
  split
  · exact ⟨_, _, rfl⟩
  · exact ⟨_, _, rfl⟩
  · exact ⟨_, _, rfl⟩
  · cases slop with
    | none => exact ⟨_, _, rfl⟩
    | some w =>
      obtain ⟨n, hn⟩ := Option.isSome_iff_exists.1 (h w rfl)
      simp only [hn, Res.ofOption]
      exact ⟨_, _, rfl⟩

theorem leafQ_phrase {cfg : Cfg} {F : List Fld} {first : Option QWord} {spots : List QSpot}
    {slop : Option QWord} {ph : Ph} (hp : phraseOf first spots = .ok ph)
    (h : ∀ w, slop = some w → (scanInt w).isSome) : ∃ q, leafQ cfg F (.phrase first spots slop) = .ok q := by
  simp only [leafQ, hp, Res.ok_bind]
  exact flds_ok (fun _ => True) (fun f a _ => by
    obtain ⟨q, a', e⟩ := getPhraseQuery_ok (cfg := cfg) h f a
    exact ⟨q, a', e, trivial⟩) F ph trivial

/-- A bound in one of the two fixed buffers, not too long. -/
def BoundOk (b : Bound) : Prop := ∀ w d, b = some (w, d) → d = false ∧ w.length ≤ 253

theorem lowerBound_ok {cfg : Cfg} (qlen : Nat) {b : Bound} (h : BoundOk b) :
    lowerBound cfg qlen b = .ok (b.map (fun x => (x.1.map cfg.lower, x.2))) ∧
    BoundOk (b.map (fun x => (x.1.map cfg.lower, x.2))) := by
  match b with
  | none => exact ⟨rfl, (fun w d e => by cases e)⟩
  | some (w, d) =>
    obtain ⟨rfl, hw⟩ := h w d rfl
    refine ⟨?_, fun w' d' e => by cases e; exact ⟨rfl, by simpa using hw⟩⟩
    unfold lowerBound lowerStr
    simp only []
    rw [if_pos (by simp [maxWordSize]; omega)]
    rfl

/-- What getRQ does behind the lowering. -/
def rangeTail (cfg : Cfg) (f : Fld) (incLo incHi : Bool) (lo hi : Bound) : Res (Option Qry × Bound × Bound) :=
  if lo.isNone && hi.isNone then .raise .arg
  else if incLo && lo.isNone then .raise .arg
  else if incHi && hi.isNone then .raise .arg
  else
    match lo, hi with
    | some (l, _), some (h, _) =>
      if cfg.inOrder l h then return (some (.range f (some l) (some h) incLo incHi), lo, hi) else .raise .arg
    | _, _ => return (some (.range f (lo.map Prod.fst) (hi.map Prod.fst) incLo incHi), lo, hi)

/-- A bound as it is after one field. -/
def lowered (cfg : Cfg) (f : Fld) (b : Bound) : Bound :=
  if lowers cfg f then b.map (fun x => (x.1.map cfg.lower, x.2)) else b

theorem lowered_ok {cfg : Cfg} {f : Fld} {b : Bound} (h : BoundOk b) : BoundOk (lowered cfg f b) := by
  unfold lowered
  split
  · exact (lowerBound_ok (cfg := cfg) 0 h).2
  · exact h

theorem getRQ_eq {cfg : Cfg} (qlen : Nat) {f : Fld} {lo hi : Bound} {incLo incHi : Bool} (h1 : BoundOk lo)
    (h2 : BoundOk hi) : getRQ cfg qlen f lo hi incLo incHi =
      rangeTail cfg f incLo incHi (lowered cfg f lo) (lowered cfg f hi) := by
  unfold getRQ lowered
  by_cases hl : lowers cfg f = true
  · simp only [if_pos hl, (lowerBound_ok qlen h1).1, (lowerBound_ok qlen h2).1]
    rfl
  · simp only [if_neg hl]
    rfl

theorem rangeTail_bounds {cfg : Cfg} {f : Fld} {incLo incHi : Bool} {lo hi : Bound} {q : Option Qry}
    {l h : Bound} (e : rangeTail cfg f incLo incHi lo hi = .ok (q, l, h)) : l = lo ∧ h = hi := by
  unfold rangeTail at e
  split at e
  · cases e
  split at e
  · cases e
  split at e
  · cases e
  split at e
  · split at e
    · cases e; exact ⟨rfl, rfl⟩
    · cases e
  · cases e; exact ⟨rfl, rfl⟩

theorem rangeIn_qlen {cfg : Cfg} (qlen : Nat) {F : List Fld} {incLo incHi : Bool} {lo hi : Bound}
    (h1 : BoundOk lo) (h2 : BoundOk hi) :
    flds F (rangeIn cfg qlen incLo incHi) (lo, hi) = flds F (rangeIn cfg 0 incLo incHi) (lo, hi) := by
  refine flds_congr (fun a => BoundOk a.1 ∧ BoundOk a.2) ?_ ?_ F (lo, hi) ⟨h1, h2⟩
  · intro f a ha
    unfold rangeIn
    rw [getRQ_eq qlen ha.1 ha.2, getRQ_eq 0 ha.1 ha.2]
  · intro f a q a' ha e
    unfold rangeIn at e
    rw [getRQ_eq qlen ha.1 ha.2] at e
    obtain ⟨⟨q1, l, h⟩, e1, e2⟩ := Res.bind_eq_ok.1 e
    obtain ⟨rfl, rfl⟩ := rangeTail_bounds e1
    cases e2
    exact ⟨lowered_ok ha.1, lowered_ok ha.2⟩

/-- Half-open ranges are defined. -/
theorem rangeIn_half {cfg : Cfg} {F : List Fld} {incLo incHi : Bool} {lo hi : Bound} (h1 : BoundOk lo)
    (h2 : BoundOk hi) (h : (lo = none ∧ hi.isSome ∧ incLo = false) ∨ (hi = none ∧ lo.isSome ∧ incHi = false)) :
    ∃ q, flds F (rangeIn cfg 0 incLo incHi) (lo, hi) = .ok q := by
  refine flds_ok (fun a => (BoundOk a.1 ∧ BoundOk a.2) ∧
    ((a.1 = none ∧ a.2.isSome ∧ incLo = false) ∨ (a.2 = none ∧ a.1.isSome ∧ incHi = false))) ?_ F (lo, hi)
    ⟨⟨h1, h2⟩, h⟩
  intro f a ha
  obtain ⟨⟨ha1, ha2⟩, ha3⟩ := ha
  unfold rangeIn
  rw [getRQ_eq 0 ha1 ha2]
  have hk := lowered_ok (cfg := cfg) (f := f) ha1
  have hk2 := lowered_ok (cfg := cfg) (f := f) ha2
  rcases ha3 with ⟨e1, e2, rfl⟩ | ⟨e1, e2, rfl⟩
  · have el : lowered cfg f a.1 = none := by rw [e1]; unfold lowered; split <;> rfl
    have eh : (lowered cfg f a.2).isSome := by
      unfold lowered; split
      · simpa using e2
      · exact e2
    obtain ⟨x, hx⟩ := Option.isSome_iff_exists.1 eh
    rw [el] at hk ⊢
    rw [hx] at hk2 ⊢
    refine ⟨some (.range f none (some x.1) false incHi), (none, some x), by simp [rangeTail], ⟨hk, hk2⟩,
      Or.inl ⟨rfl, rfl, rfl⟩⟩
  · have el : lowered cfg f a.2 = none := by rw [e1]; unfold lowered; split <;> rfl
    have eh : (lowered cfg f a.1).isSome := by
      unfold lowered; split
      · simpa using e2
      · exact e2
    obtain ⟨x, hx⟩ := Option.isSome_iff_exists.1 eh
    rw [el] at hk2 ⊢
    rw [hx] at hk ⊢
    refine ⟨some (.range f (some x.1) none incLo false), (some x, none), by simp [rangeTail], ⟨hk, hk2⟩,
      Or.inr ⟨rfl, rfl, rfl⟩⟩

/-- Ranges with two bounds are defined, or their bounds are not in order. -/
theorem leafQ_between {cfg : Cfg} {F : List Fld} {lo hi : QWord} {incLo incHi : Bool}
    (hlow : ∀ c, cfg.lower (cfg.lower c) = cfg.lower c) (h1 : lo.length ≤ 253) (h2 : hi.length ≤ 253) :
    (∃ q, leafQ cfg F (.between lo hi incLo incHi) = .ok q) ∨
    ((∃ e, leafQ cfg F (.between lo hi incLo incHi) = .raise e) ∧
      ¬ (cfg.inOrder lo hi = true ∧ cfg.inOrder (lo.map cfg.lower) (hi.map cfg.lower) = true)) := by
  refine flds_raise (fun a => a = (some (lo, false), some (hi, false)) ∨
    a = (some (lo.map cfg.lower, false), some (hi.map cfg.lower, false))) _ ?_ F _ (Or.inl rfl)
  intro f a ha
  have hb : ∀ w : QWord, w.length ≤ 253 → BoundOk (some (w, false)) :=
    fun w hw w' d e => by cases e; exact ⟨rfl, hw⟩
  have hlow2 : ∀ w : QWord, (w.map cfg.lower).map cfg.lower = w.map cfg.lower := by
    intro w; rw [List.map_map]; exact List.map_congr_left (fun c _ => hlow c)
  have tail : ∀ x y : QWord, (x = lo ∧ y = hi) ∨ (x = lo.map cfg.lower ∧ y = hi.map cfg.lower) →
      (∃ q a', (do let (q, l, h) ← rangeTail cfg f incLo incHi (some (x, false)) (some (y, false))
                   return (q, (l, h)) : Res (Option Qry × (Bound × Bound))) = .ok (q, a') ∧
        (a' = (some (lo, false), some (hi, false)) ∨
          a' = (some (lo.map cfg.lower, false), some (hi.map cfg.lower, false)))) ∨
      ((∃ e, (do let (q, l, h) ← rangeTail cfg f incLo incHi (some (x, false)) (some (y, false))
                 return (q, (l, h)) : Res (Option Qry × (Bound × Bound))) = .raise e) ∧
        ¬ (cfg.inOrder lo hi = true ∧ cfg.inOrder (lo.map cfg.lower) (hi.map cfg.lower) = true)) := by
    intro x y hxy
    by_cases ho : cfg.inOrder x y = true
    · left
      refine ⟨some (.range f (some x) (some y) incLo incHi), (some (x, false), some (y, false)), ?_, ?_⟩
      · simp [rangeTail, ho]
      · rcases hxy with ⟨rfl, rfl⟩ | ⟨rfl, rfl⟩
        · exact Or.inl rfl
        · exact Or.inr rfl
    · right
      refine ⟨⟨.arg, ?_⟩, ?_⟩
      · simp [rangeTail, ho]
      · rcases hxy with ⟨rfl, rfl⟩ | ⟨rfl, rfl⟩
        · exact fun h => ho h.1
        · exact fun h => ho h.2
  unfold rangeIn
  rcases ha with rfl | rfl
  · rw [getRQ_eq 0 (hb _ h1) (hb _ h2)]
    unfold lowered
    by_cases hl : lowers cfg f = true
    · rw [if_pos hl, if_pos hl]; exact tail _ _ (Or.inr ⟨rfl, rfl⟩)
    · rw [if_neg hl, if_neg hl]; exact tail _ _ (Or.inl ⟨rfl, rfl⟩)
  · rw [getRQ_eq 0 (hb _ (by simpa using h1)) (hb _ (by simpa using h2))]
    unfold lowered
    by_cases hl : lowers cfg f = true
    · rw [if_pos hl, if_pos hl]
      simp only [Option.map_some, hlow2]
      exact tail _ _ (Or.inr ⟨rfl, rfl⟩)
    · rw [if_neg hl, if_neg hl]; exact tail _ _ (Or.inr ⟨rfl, rfl⟩)

/-! ### Numbers -/

theorem digits_all : ∀ {ds : List Char}, (∀ c ∈ ds, c.isDigit) → digits ds = ds
  | [], _ => rfl
  | c :: ds, h => by
    unfold digits
    rw [if_pos (h c (by simp)), digits_all (fun d hd => h d (by simp [hd]))]

theorem digitsValue_lt : ∀ (ds : List Char) (n : Nat), (∀ c ∈ ds, c.isDigit) →
    ds.foldl (fun n c => n * 10 + (c.toNat - '0'.toNat)) n < (n + 1) * 10 ^ ds.length := by
  intro ds
  induction ds with
  | nil => intro n _; simp
  | cons c ds ih =>
    intro n h
    have hc : c.toNat - '0'.toNat ≤ 9 := by
      have := h c (by simp)
      simp only [Char.isDigit, Bool.and_eq_true, decide_eq_true_eq] at this
      have h2 : c.val.toNat ≤ 57 := this.2
      show c.val.toNat - 48 ≤ 9
      omega
    have := ih (n * 10 + (c.toNat - '0'.toNat)) (fun d hd => h d (by simp [hd]))
    simp only [List.foldl_cons, List.length_cons]
    refine Nat.lt_of_lt_of_le this ?_
    rw [Nat.pow_succ, Nat.mul_comm (10 ^ ds.length) 10, ← Nat.mul_assoc]
    exact Nat.mul_le_mul_right _ (by omega)

theorem scanInt_number {w : QWord} (h : qNumber w) : (scanInt w).isSome := by
  obtain ⟨sg, ds, rfl, hs, hd, hdig, hlen⟩ := h
  obtain ⟨d, ds, rfl⟩ : ∃ d ds', ds = d :: ds' := by
    cases ds with
    | nil => exact absurd rfl hd
    | cons d ds => exact ⟨d, ds, rfl⟩
  have hv : ¬ 2147483647 < digitsValue (d :: ds) := by
    have h1 := digitsValue_lt (d :: ds) 0 hdig
    have h2 : 10 ^ (d :: ds).length ≤ 10 ^ 9 := Nat.pow_le_pow_right (by omega) hlen
    unfold digitsValue
    simp only [Nat.zero_add, Nat.one_mul] at h1
    omega
  have hdd := hdig d (by simp)
  have hnot : ∀ c : Char, c.isDigit → c ≠ '-' ∧ c ≠ '+' ∧ c.isWhitespace = false := by
    intro c hc
    simp only [Char.isDigit, Bool.and_eq_true, decide_eq_true_eq] at hc
    have h1 : 48 ≤ c.val.toNat := hc.1
    refine ⟨?_, ?_, ?_⟩
    · rintro rfl; revert h1; decide
    · rintro rfl; revert h1; decide
    · simp only [Char.isWhitespace, Bool.or_eq_false_iff, decide_eq_false_iff_not]
      refine ⟨⟨⟨?_, ?_⟩, ?_⟩, ?_⟩ <;> rintro rfl <;> revert h1 <;> decide
  obtain ⟨n1, n2, n3⟩ := hnot d hdd
  unfold scanInt
  rcases hs with rfl | rfl | rfl
  · rw [List.nil_append, List.dropWhile_cons_of_neg (by simp [n3])]
    split
    rename_i neg s e
    split at e
    · rename_i e2; cases e2; exact absurd rfl n1
    · rename_i e2; cases e2; exact absurd rfl n2
    · cases e
      simp only []
      rw [digits_all hdig, if_neg (by simp [hv])]
      rfl
  · simp only [List.cons_append, List.nil_append]
    rw [List.dropWhile_cons_of_neg (by decide)]
    simp only []
    rw [digits_all hdig, if_neg (by simp [hv])]
    rfl
  · simp only [List.cons_append, List.nil_append]
    rw [List.dropWhile_cons_of_neg (by decide)]
    simp only []
    rw [digits_all hdig, if_neg (by simp [hv])]
    rfl

end Ferret.QP
