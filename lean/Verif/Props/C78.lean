import Verif.Props.C77
import Verif.Props.C41
import Verif.Lemmas.QAsk

/-!
C78: what the words, phrases and patterns of a query text ask for, and what a query for several fields asks for:
the same in any of them.
-/

namespace Ferret.Props
open Ferret Ferret.QP Ferret.Spec

/-- A leaf that stands in a query text for several fields asks for what it asks for in any one of them. Missing:
patterns and ranges for fields of which some have their patterns put in lower case and others not, and a phrase of
one place with several words (`"a|b"`): what is asked for in a field then depends on the fields before it
(`c78_pattern_follows_other_field`, `c78_range_follows_other_field`, `c78_choice_follows_other_field`). -/
theorem c78_fields_partial (cfg : Cfg) (hlow : ∀ c, cfg.lower (cfg.lower c) = cfg.lower c) (l : QLeaf)
    (ht : QTame l.written) (ho : QOrdered cfg.inOrder cfg.lower l.written) (F : List Fld) (h2 : 2 ≤ F.length)
    (hF : ∀ f ∈ F, ∀ g ∈ F, (cfg.wildLower && cfg.tokenized f) = (cfg.wildLower && cfg.tokenized g))
    (hc : l.choice = false) :
    (lang cfg).leaf F l = anyOf (F.map (fun f => (lang cfg).leaf [f] l)) := by
  simp only [lang_leaf_okVal]
  have done : ∀ {q : Option Qry}, leafQ cfg F l = .ok q → okVal (leafQ cfg F l) = q := fun e => by rw [e]; rfl
  refine done ?_
  have hb : ∀ w : QWord, w.length ≤ 253 → BoundOk (some (w, false)) :=
    fun w hw w' d e => by cases e; exact ⟨rfl, hw⟩
  have hn : BoundOk none := fun w d e => by cases e
  match l with
  | .word w =>
    exact flds_apart (fun _ => True) trivial (fun f _ => ⟨_, fun a _ => ⟨_, rfl, trivial⟩⟩) h2
  | .fuzzy w s =>
    exact flds_apart (fun _ => True) trivial (fun f _ => ⟨_, fun a _ => ⟨_, rfl, trivial⟩⟩) h2
  | .wild w =>
    have hw : w.length ≤ 253 := ht.short w (Or.inr (by simp [QLeaf.written]))
    refine flds_apart (fun a => a.length ≤ 253 ∧ ∀ f ∈ F, seen cfg f a = seen cfg f w) ⟨hw, fun _ _ => rfl⟩
      (fun f hf => ⟨some (patternQ f (seen cfg f w)), fun a ha => ⟨seen cfg f a, ?_, ?_, ?_⟩⟩) h2
    · rw [getWildQ_eq ha.1, ha.2 f hf]
    · rw [seen_length]; exact ha.1
    · intro g hg
      rw [seen_seen hlow (hF f hf g hg), ha.2 g hg]
  | .phrase first ss slop =>
    obtain ⟨ph, hp⟩ := phrase_tame_ok ht
    have hsl := phrase_slop ht
    have hwp := phrase_written ht hp
    simp only [leafQ, hp, Res.ok_bind]
    refine flds_apart (fun a => a = ph) rfl (fun f _ => ?_) h2
    obtain ⟨q, ph', e⟩ := getPhraseQuery_ok (cfg := cfg) hsl f ph
    refine ⟨q, ?_⟩
    rintro _ rfl
    refine ⟨ph', e, ?_⟩
    unfold getPhraseQuery at e
    split at e
    · cases e; rfl
    · cases e; rfl
    · rename_i p ws hnw hps
      obtain ⟨pre, -, hne⟩ := phrase_places ht hp
      rw [hps] at hwp
      simp only [QLeaf.choice, hwp, List.map_cons, List.map_nil] at hc
      have h1 : ws ≠ [] := hne (p, ws) (by rw [hps]; simp)
      match ws, h1 with
      | [w], _ => exact absurd rfl (hnw w)
      | w :: w' :: ws, _ => simp at hc
    · cases slop with
      | none => cases e; rfl
      | some w =>
        obtain ⟨s, e1, e2⟩ := Res.bind_eq_ok.1 e
        cases e2
        rfl
  | .noPhrase s =>
    have : ∀ n : Nat, (List.replicate n (none : Option Qry)).filterMap id = [] := by
      intro n; induction n with
      | zero => rfl
      | succ n ih => simpa [List.replicate_succ] using ih
    simp only [leafQ, okVal]
    rw [List.map_const', anyOf, this]
  | .between lo hi i j =>
    have h1 := ht.short lo (Or.inl (by simp [QLeaf.written]))
    have h2' := ht.short hi (Or.inl (by simp [QLeaf.written]))
    refine range_apart hlow (hb lo h1) (hb hi h2') hF h2 (fun f _ => ?_)
    rcases leafQ_between (cfg := cfg) (F := [f]) (incLo := i) (incHi := j) hlow h1 h2' with h | ⟨-, h⟩
    · exact h
    · refine absurd (ho [] (if i then '[' else '{') lo hi [.sym (if j then ']' else '}')] rfl ?_) h
      cases i
      · exact Or.inr rfl
      · exact Or.inl rfl
  | .below hi i b =>
    have h1 := ht.short hi (Or.inl (by cases i <;> cases b <;> simp [QLeaf.written]))
    exact range_apart hlow hn (hb hi h1) hF h2 (fun f _ => rangeIn_half hn (hb hi h1) (Or.inl ⟨rfl, rfl, rfl⟩))
  | .above lo i b =>
    have h1 := ht.short lo (Or.inl (by cases i <;> cases b <;> simp [QLeaf.written]))
    exact range_apart hlow (hb lo h1) hn hF h2 (fun f _ => rangeIn_half (hb lo h1) hn (Or.inr ⟨rfl, rfl, rfl⟩))

/-- A word for a field that the analyzer splits into tokens: nothing if there are none, the term if there is one, and
else a phrase with all the tokens, in order, each at the position the analyzer gives it behind the first; its slop is
the number of places behind the first. -/
theorem c78_word (cfg : Cfg) (f : Fld) (w : QWord) :
    (cfg.toks f w = [] → (lang cfg).leaf [f] (.word w) = none) ∧
    (∀ t i, cfg.toks f w = [(t, i)] → (lang cfg).leaf [f] (.word w) = some (.term f t)) ∧
    (2 ≤ (cfg.toks f w).length → ∃ ps, (lang cfg).leaf [f] (.word w) =
        some (.phrase f ps (((cfg.toks f w).drop 1).filter (fun p => p.2 != 0)).length) ∧
      oneByOne (absolute 0 ps) = tokenPositions (cfg.toks f w)) := by
  have e0 : (lang cfg).leaf [f] (.word w) = getTermQ cfg f w := lang_leaf rfl
  rw [e0]
  unfold getTermQ
  refine ⟨fun e => by rw [e], fun t i e => by rw [e], fun h => ?_⟩
  match e : cfg.toks f w, h with
  | (t, i) :: x :: ts, _ =>
    simp only []
    have := termLoop_spec (x :: ts) [] 0 [t] 0
    refine ⟨(termLoop (x :: ts) [(0, [t])] 0).1, ?_, ?_⟩
    · show some (Qry.phrase f _ (termLoop (x :: ts) [(0, [t])] 0).2) = _
      rw [show (termLoop (x :: ts) [(0, [t])] 0).2 = _ from this.2]
      simp
      rfl
    · rw [show oneByOne (absolute 0 (termLoop (x :: ts) [(0, [t])] 0).1) = _ from this.1]
      simp [tokenPositions, absolute, oneByOne]

/-- A fuzzy word: the first token of the word, if it has one. -/
theorem c78_fuzzy (cfg : Cfg) (f : Fld) (w : QWord) (s : Option QWord) :
    (cfg.toks f w = [] → (lang cfg).leaf [f] (.fuzzy w s) = none) ∧
    (∀ t i ts, cfg.toks f w = (t, i) :: ts → (lang cfg).leaf [f] (.fuzzy w s) = some (.fuzzy f t s)) := by
  have e0 : (lang cfg).leaf [f] (.fuzzy w s) = getFuzzyQ cfg f w s := lang_leaf rfl
  rw [e0]
  unfold getFuzzyQ
  exact ⟨fun e => by rw [e], fun t i ts e => by rw [e]⟩

/-- A phrase of two or more written places: a phrase query whose places are those of which something is left, with the
tokens of their words, at the distances at which they are written, gaps and places of which nothing is left counted;
its slop is what is given, and one more for every written place but the last of which nothing is left. Missing: words
that the analyzer splits, or whose token it puts on the place before; and texts that are not tame, as in C76. -/
theorem c78_phrase_partial (cfg : Cfg) (f : Fld) (first : Option QWord) (ss : List QSpot) (slop : Option QWord)
    (n : Int) (ht : QTame (QLeaf.phrase first ss slop).written) (hn : slopValue slop n)
    (tok : QWord → Option (List Char))
    (hw : ∀ p ∈ phrasePlaces first ss, ∀ w ∈ p, (cfg.toks f w = [] ∧ tok w = none) ∨
      ∃ t i, cfg.toks f w = [(t, i)] ∧ i ≠ 0 ∧ tok w = some t)
    (h2 : 2 ≤ (writtenPlaces first ss).length) :
    ∃ ps b, (lang cfg).leaf [f] (.phrase first ss slop) =
        some (.phrase f ps (n + placesLost tok (phrasePlaces first ss))) ∧
      absolute b ps = placesKept tok 0 (phrasePlaces first ss) := by
  obtain ⟨ph, hp⟩ := phrase_tame_ok ht
  obtain ⟨pre, hpl, hne⟩ := phrase_places ht hp
  have hwp := phrase_written ht hp
  have htok : ∀ p ∈ phrasePlaces first ss, p.filterMap tok = p.filterMap (firstTok cfg f) := by
    intro p hp'
    have hw' := hw p hp'
    clear hp'
    induction p with
    | nil => rfl
    | cons w p ih =>
      rw [List.filterMap_cons, List.filterMap_cons, ih (fun x hx => hw' x (List.mem_cons_of_mem _ hx))]
      rcases hw' w List.mem_cons_self with ⟨e, e'⟩ | ⟨t, i, e, -, e'⟩ <;> simp [firstTok, e, e']
  have hkept : ∀ (ps : List (List QWord)) (i : Nat), (∀ p ∈ ps, p.filterMap tok = p.filterMap (firstTok cfg f)) →
      placesKept tok i ps = placesKept (firstTok cfg f) i ps := by
    intro ps
    induction ps with
    | nil => intro i _; rfl
    | cons p ps ih =>
      intro i h
      simp only [placesKept]
      rw [h p List.mem_cons_self, ih _ (fun q hq => h q (List.mem_cons_of_mem _ hq))]
  have hlost : ∀ (ps : List (List QWord)), (∀ p ∈ ps, p.filterMap tok = p.filterMap (firstTok cfg f)) →
      placesLost tok ps = placesLost (firstTok cfg f) ps := by
    intro ps
    induction ps with
    | nil => intro _; rfl
    | cons p ps ih =>
      intro h
      simp only [placesLost]
      rw [h p List.mem_cons_self, ih (fun q hq => h q (List.mem_cons_of_mem _ hq))]
  rw [hkept _ 0 htok, hlost _ htok]
  have hone : ∀ p ∈ ph.ps, ∀ w ∈ p.2, OneToken cfg f w := by
    intro p hp' w hw'
    have : p.2 ∈ phrasePlaces first ss := by
      have : p.2 ∈ writtenPlaces first ss := by rw [hwp]; exact List.mem_map_of_mem hp'
      exact (List.mem_filter.1 this).1
    rcases hw _ this w hw' with ⟨e, -⟩ | ⟨t, i, e, hi, -⟩
    · exact Or.inl e
    · exact Or.inr ⟨t, i, e, hi⟩
  obtain ⟨new, b, e1, e2, -⟩ := spots_start ph.ps 0 n pre hone
  refine ⟨new, b, lang_leaf ?_, ?_⟩
  · simp only [leafQ, hp, Res.ok_bind]
    have e3 : getPhraseQuery cfg f ph slop =
        .ok (some (.phrase f new (n + placesLost (firstTok cfg f) (phrasePlaces first ss))), ph) := by
      have hl : 2 ≤ ph.ps.length := by rw [hwp, List.length_map] at h2; exact h2
      have hs : (match slop with | none => (.ok 0 : Res Int) | some t => Res.ofOption (scanInt t)) = .ok n := by
        cases slop with
        | none => rw [show n = 0 from hn]
        | some w => simp only [scanInt_value hn, Res.ofOption]
      have e4 : placesLost (firstTok cfg f) (phrasePlaces first ss) = lostIn cfg f ph.ps := by
        rw [hpl, List.append_assoc, lost_gaps, lost_spread cfg f _ _ hne]
      unfold getPhraseQuery
      split
      · rename_i h; rw [h] at hl; simp at hl
      · rename_i h; rw [h] at hl; simp at hl
      · rename_i h; rw [h] at hl; simp at hl
      · cases slop with
        | none =>
          have : n = 0 := hn
          subst this
          rw [e4]
          simp only [Res.ok_bind, e1]
          simp
        | some w =>
          rw [e4]
          simp only [scanInt_value hn, Res.ofOption, Res.ok_bind, e1]
          simp
    exact flds_single e3
  · rw [e2, hpl, List.append_assoc, placesKept_append, placesKept_gaps, List.nil_append, placesKept_append,
      placesKept_gaps, List.append_nil, List.length_replicate, Nat.zero_add]

/-- A phrase of one written place with one word is that word; with several words it asks for any of their first
tokens; a phrase of gaps only asks for nothing. -/
theorem c78_place (cfg : Cfg) (f : Fld) (first : Option QWord) (ss : List QSpot) (slop : Option QWord)
    (ht : QTame (QLeaf.phrase first ss slop).written) :
    (writtenPlaces first ss = [] → (lang cfg).leaf [f] (.phrase first ss slop) = none) ∧
    (∀ w, writtenPlaces first ss = [[w]] →
      (lang cfg).leaf [f] (.phrase first ss slop) = (lang cfg).leaf [f] (.word w)) ∧
    (∀ ws, writtenPlaces first ss = [ws] → 2 ≤ ws.length →
      (∀ w ∈ ws, ∀ t i, (cfg.toks f w).head? = some (t, i) → t ≠ []) → ∀ ts,
      ts = ws.filterMap (fun w => (cfg.toks f w).head?.map Prod.fst) →
      (lang cfg).leaf [f] (.phrase first ss slop) =
        match ts with | [] => some (.bool [] false) | [t] => some (.term f t) | ts => some (.multi f ts)) := by
  obtain ⟨ph, hp⟩ := phrase_tame_ok ht
  have hwp := phrase_written ht hp
  have e0 : leafQ cfg [f] (.phrase first ss slop) = flds [f] (fun f a => getPhraseQuery cfg f a slop) ph := by
    simp only [leafQ, hp, Res.ok_bind]
  rw [hwp]
  refine ⟨fun h => ?_, fun w h => ?_, fun ws h h2 hne ts hts => ?_⟩
  · rw [List.map_eq_nil_iff] at h
    refine lang_leaf ?_
    rw [e0]
    exact flds_single (a' := ph) (by unfold getPhraseQuery; rw [h])
  · obtain ⟨⟨p, _⟩, l, e, rfl, h3⟩ := List.map_eq_cons_iff.1 h
    rw [List.map_eq_nil_iff] at h3
    subst h3
    rw [show (lang cfg).leaf [f] (.word w) = getTermQ cfg f w from lang_leaf rfl]
    refine lang_leaf ?_
    rw [e0]
    exact flds_single (a' := ph) (by unfold getPhraseQuery; rw [e])
  · obtain ⟨⟨p, _⟩, l, e, rfl, h3⟩ := List.map_eq_cons_iff.1 h
    rw [List.map_eq_nil_iff] at h3
    subst h3
    simp only at h2 hne hts
    rename_i ws
    have e1 : ∃ a, getPhraseQuery cfg f ph slop = .ok ((oneSpot cfg f ws).1, a) := by
      match ws, h2, e with
      | w :: w' :: ws, _, e => exact ⟨_, by unfold getPhraseQuery; rw [e]⟩
    obtain ⟨a, e1⟩ := e1
    refine lang_leaf ?_
    rw [e0, flds_single e1]
    congr 1
    have hfil : ∀ l : List QWord, (∀ w ∈ l, ∀ t i, (cfg.toks f w).head? = some (t, i) → t ≠ []) →
        (l.map (fun w => match cfg.toks f w with | [] => [] | (t, _) :: _ => t)).filter (fun w => !w.isEmpty) =
          l.filterMap (fun w => (cfg.toks f w).head?.map Prod.fst) := by
      intro l
      induction l with
      | nil => intro _; rfl
      | cons w l ih =>
        intro hl
        have ih' := ih (fun x hx => hl x (List.mem_cons_of_mem _ hx))
        rw [List.map_cons, List.filter_cons, ih', List.filterMap_cons]
        cases e : cfg.toks f w with
        | nil => simp
        | cons t r =>
          obtain ⟨t, i⟩ := t
          have : t ≠ [] := hl w List.mem_cons_self t i (by rw [e]; rfl)
          simp [this]
    unfold oneSpot
    simp only [← hts]
    match ts, hts with
    | [], _ => rfl
    | [t], _ => rfl
    | t :: t' :: ts, hts => exact congrArg (fun l => some (Qry.multi f l)) ((hfil ws hne).trans hts.symm)

theorem c78_glob_plain {p t : List Byte} (h : ∀ c ∈ p, c ≠ 42 ∧ c ≠ 63) : Glob (p ++ [42]) t ↔ p <+: t := by
  induction p generalizing t with
  | nil =>
    refine ⟨fun _ => List.nil_prefix, fun _ => ?_⟩
    have := Glob.cons (fills_star t) Glob.nil
    simpa using this
  | cons c p ih =>
    obtain ⟨h1, h2⟩ := h c List.mem_cons_self
    rw [List.cons_append, glob_cons]
    constructor
    · rintro ⟨r, t', rfl, hf, hg⟩
      simp only [fills, h1, h2, if_false] at hf
      subst hf
      rw [List.singleton_append, List.cons_prefix_cons]
      exact ⟨rfl, (ih (fun x hx => h x (List.mem_cons_of_mem _ hx))).1 hg⟩
    · intro hp
      cases t with
      | nil => simp at hp
      | cons x t =>
        rw [List.cons_prefix_cons] at hp
        obtain ⟨rfl, hp⟩ := hp
        refine ⟨[c], t, rfl, by simp [fills, h1, h2], (ih (fun x hx => h x (List.mem_cons_of_mem _ hx))).2 hp⟩

/-- A word with wild cards asks in a field for the terms that match it as a pattern, put in lower case first if that
is set and the field has tokens; whether it comes to a pattern query, a prefix query, or — for `*` alone — the query
that finds every document, which finds those without the field, too. -/
theorem c78_wild (cfg : Cfg) (f : Fld) (w : QWord) (hl : w.length ≤ 253) (enc : Char → Byte)
    (h1 : ∀ c, enc c = 42 ↔ c = '*') (h2 : ∀ c, enc c = 63 ↔ c = '?') :
    ∃ q, (lang cfg).leaf [f] (.wild w) = some q ∧
      ∀ t, finds enc f q t ↔
        Glob ((if cfg.wildLower && cfg.tokenized f then w.map cfg.lower else w).map enc) t := by
  refine ⟨patternQ f (seen cfg f w), lang_leaf (flds_single (getWildQ_eq hl)), fun t => ?_⟩
  show _ ↔ Glob ((seen cfg f w).map enc) t
  generalize seen cfg f w = p
  unfold patternQ
  split
  · rename_i h
    subst h
    have e : enc '*' = 42 := (h1 '*').2 rfl
    have := (c78_glob_plain (p := []) (t := t) (by simp)).2 List.nil_prefix
    simp only [finds, List.map_cons, List.map_nil, e, true_iff]
    simpa using this
  split
  · rename_i h
    obtain ⟨ha, hb⟩ := h
    have e : p = p.dropLast ++ ['*'] := by
      rcases List.eq_nil_or_concat p with rfl | ⟨p', x, rfl⟩
      · cases ha
      · rw [List.concat_eq_append] at *
        rw [List.getLast?_concat] at ha
        cases ha
        rw [List.dropLast_concat]
    have hp : ∀ c ∈ p.dropLast.map enc, c ≠ 42 ∧ c ≠ 63 := by
      intro c hc
      obtain ⟨x, hx, rfl⟩ := List.mem_map.1 hc
      simp only [List.any_eq_true, not_exists, not_and, Bool.or_eq_true, beq_iff_eq, not_or] at hb
      exact ⟨fun h => (hb x hx).1 ((h1 x).1 h), fun h => (hb x hx).2 ((h2 x).1 h)⟩
    simp only [finds, true_and]
    rw [← c78_glob_plain hp]
    conv => rhs; rw [e]
    rw [List.map_append, List.map_cons, List.map_nil, (h1 '*').2 rfl]
  · simp [finds]

/-- A range asks in a field for what lies between its bounds, put in lower case first if that is set and the field has
tokens. -/
theorem c78_range (cfg : Cfg) (f : Fld) (x y : QWord) (i j : Bool)
    (hx : x.length ≤ 253) (hy : y.length ≤ 253) (look : QWord → QWord)
    (hlook : ∀ w, look w = if cfg.wildLower && cfg.tokenized f then w.map cfg.lower else w) :
    (cfg.inOrder (look x) (look y) = true → 
      (lang cfg).leaf [f] (.between x y i j) = some (.range f (some (look x)) (some (look y)) i j)) ∧
    (∀ b, (lang cfg).leaf [f] (.below y j b) = some (.range f none (some (look y)) false j)) ∧
    (∀ b, (lang cfg).leaf [f] (.above x i b) = some (.range f (some (look x)) none i false)) := by
  have hb : ∀ w : QWord, w.length ≤ 253 → BoundOk (some (w, false)) :=
    fun w hw w' d e => by cases e; exact ⟨rfl, hw⟩
  have hn : BoundOk none := fun w d e => by cases e
  have hs : ∀ w, lowered cfg f (some (w, false)) = some (look w, false) := by
    intro w; rw [lowered_seen, hlook w]; rfl
  have hs0 : lowered cfg f none = none := by rw [lowered_seen]; rfl
  refine ⟨fun ho => ?_, fun b => ?_, fun b => ?_⟩
  · refine lang_leaf (flds_single (a' := (some (look x, false), some (look y, false))) ?_)
    unfold rangeIn
    rw [getRQ_eq 0 (hb x hx) (hb y hy), hs, hs]
    simp [rangeTail, ho]
  · refine lang_leaf (flds_single (a' := (none, some (look y, false))) ?_)
    unfold rangeIn
    rw [getRQ_eq 0 hn (hb y hy), hs, hs0]
    simp [rangeTail]
  · refine lang_leaf (flds_single (a' := (some (look x, false), none)) ?_)
    unfold rangeIn
    rw [getRQ_eq 0 (hb x hx) hn, hs, hs0]
    simp [rangeTail]

/-! ### Witnesses and examples -/

/-- Field `t` has tokens in lower case and drops the word `the`; field `k` is taken as it is. -/
def c78_cfg : Cfg := { c76_cfg with
  toks := fun f w => if f = ['k'] then [(w, 1)] else if w = ['t', 'h', 'e'] then [] else
    if w = ['a', '-', 'b'] then [(['a'], 1), (['b'], 1)] else [(w.map Char.toLower, 1)]
  tokenized := fun f => f != ['k']
  lower := Char.toLower
  wildLower := true
  allFields := [['t'], ['k']]
  inOrder := fun a b => decide ((a.headD 'a').toNat ≤ (b.headD 'a').toNat) }

/-- `t|k:A*` asks in `k` for what begins with `a`; `k|t:A*` and `k:A*` ask there for what begins with `A`. -/
theorem c78_pattern_follows_other_field :
    qpParse c78_cfg 1000 [] ['t', '|', 'k', ':', 'A', '*'] =
      .ok ([], .query (.bool [(.should, .pre ['t'] ['a']), (.should, .pre ['k'] ['a'])] false)) ∧
    qpParse c78_cfg 1000 [] ['k', '|', 't', ':', 'A', '*'] =
      .ok ([], .query (.bool [(.should, .pre ['k'] ['A']), (.should, .pre ['t'] ['a'])] false)) ∧
    qpParse c78_cfg 1000 [] ['k', ':', 'A', '*'] = .ok ([], .query (.pre ['k'] ['A'])) := by
  refine ⟨?_, ?_, ?_⟩ <;> exact sameReply_eq (by decide +kernel)

/-- So with ranges. -/
theorem c78_range_follows_other_field :
    qpParse c78_cfg 1000 [] ['t', '|', 'k', ':', '[', 'A', ' ', 'B', ']'] =
      .ok ([], .query (.bool [(.should, .range ['t'] (some ['a']) (some ['b']) true true),
        (.should, .range ['k'] (some ['a']) (some ['b']) true true)] false)) ∧
    qpParse c78_cfg 1000 [] ['k', ':', '[', 'A', ' ', 'B', ']'] =
      .ok ([], .query (.range ['k'] (some ['A']) (some ['B']) true true)) := by
  refine ⟨?_, ?_⟩ <;> exact sameReply_eq (by decide +kernel)

/-- `t|k:"the|X|Y"` asks in `k` for `x` and `y`, where `k:"the|X|Y"` asks for `the`, `X` and `Y`. -/
theorem c78_choice_follows_other_field :
    qpParse c78_cfg 1000 [] ['t', '|', 'k', ':', '"', 't', 'h', 'e', '|', 'X', '|', 'Y', '"'] =
      .ok ([], .query (.bool [(.should, .multi ['t'] [['x'], ['y']]), (.should, .multi ['k'] [['x'], ['y']])] false)) ∧
    qpParse c78_cfg 1000 [] ['k', ':', '"', 't', 'h', 'e', '|', 'X', '|', 'Y', '"'] =
      .ok ([], .query (.multi ['k'] [['t', 'h', 'e'], ['X'], ['Y']])) := by
  refine ⟨?_, ?_⟩ <;> exact sameReply_eq (by decide +kernel)

/-- `*` for a field asks for every document. -/
theorem c78_star_is_everything : qpParse c78_cfg 1000 [] ['k', ':', '*'] = .ok ([], .query .all) :=
  sameReply_eq (by decide +kernel)

theorem c78_sample_tame : QTame (QLeaf.phrase (some ['X']) [.gap, .next ['t', 'h', 'e'], .next ['Y'], .alt ['Z'], .gap] (some ['3'])).written := by
  refine ⟨?_, ?_, ?_⟩
  · intro w h
    simp [QLeaf.written, writtenFirst, writtenSlop, QSpot.written] at h
    rcases h with rfl | rfl | rfl | rfl | rfl <;> decide
  · intro a b
    exact no_pair (by decide +kernel)
  · intro a w b e'
    generalize hts : (QLeaf.phrase (some ['X']) [.gap, .next ['t', 'h', 'e'], .next ['Y'], .alt ['Z'], .gap] (some ['3'])).written = ts at e'
    have h2 : ∀ n, n < ts.length → ts[n]? = some (.sym '"') → ts[n + 1]? = some (.sym '~') →
        ts[n + 2]? = some (.word ['3']) := by subst hts; decide +kernel
    have hl := congrArg List.length e'
    rw [List.length_append] at hl
    have := h2 a.length (by rw [hl]; simp) (by rw [e']; simp) (by rw [e']; simp)
    rw [e'] at this
    simp at this
    subst this
    exact ⟨[], ['3'], rfl, Or.inl rfl, by simp, by decide, by decide⟩

/-- `"X <> the Y|Z <>"~3` in `t`: `x`, and three places behind it `y` or `z`; slop 4. -/
example : (lang c78_cfg).leaf [['t']] (.phrase (some ['X']) [.gap, .next ['t', 'h', 'e'], .next ['Y'], .alt ['Z'], .gap] (some ['3'])) =
    some (.phrase ['t'] [(0, [['x']]), (3, [['y'], ['z']])] 4) := by rfl

/-- The theorem applies to it. -/
example : ∃ ps b, (lang c78_cfg).leaf [['t']] (.phrase (some ['X']) [.gap, .next ['t', 'h', 'e'], .next ['Y'], .alt ['Z'], .gap] (some ['3'])) =
      some (.phrase ['t'] ps 4) ∧ absolute b ps = [(0, [['x']]), (3, [['y'], ['z']])] :=
  c78_phrase_partial c78_cfg ['t'] (some ['X']) [.gap, .next ['t', 'h', 'e'], .next ['Y'], .alt ['Z'], .gap] (some ['3']) 3
    c78_sample_tame ⟨[], ['3'], rfl, Or.inl ⟨Or.inl rfl, rfl⟩, by simp, by decide, by decide⟩
    (fun w => if w = ['t', 'h', 'e'] then none else some (w.map Char.toLower))
    (by
      intro p hp w hw
      simp [phrasePlaces, placesRest] at hp
      rcases hp with rfl | rfl | rfl | rfl | rfl <;> simp at hw
      · subst hw; exact Or.inr ⟨['x'], 1, rfl, by decide, rfl⟩
      · subst hw; exact Or.inl ⟨rfl, rfl⟩
      · rcases hw with rfl | rfl
        · exact Or.inr ⟨['y'], 1, rfl, by decide, rfl⟩
        · exact Or.inr ⟨['z'], 1, rfl, by decide, rfl⟩)
    (by decide)

/-- A phrase in two fields. -/
example : (lang c78_cfg).leaf [['t'], ['k']] (.phrase (some ['X']) [.gap, .next ['t', 'h', 'e'], .next ['Y'], .alt ['Z'], .gap] (some ['3'])) =
    anyOf ([['t'], ['k']].map (fun f => (lang c78_cfg).leaf [f] (.phrase (some ['X']) [.gap, .next ['t', 'h', 'e'], .next ['Y'], .alt ['Z'], .gap] (some ['3'])))) := by rfl

/-- A word that is split, with two fields that agree. -/
example : (lang c78_cfg).leaf [['t'], ['u']] (.word ['a', '-', 'b']) =
    some (.bool [(.should, .phrase ['t'] [(0, [['a']]), (1, [['b']])] 1), (.should, .phrase ['u'] [(0, [['a']]), (1, [['b']])] 1)] false) := by rfl

example : 2 ≤ (c78_cfg.toks ['t'] ['a', '-', 'b']).length := by decide

/-- Lower case for one letter only. -/
def c78_lowA : Cfg := { c78_cfg with lower := fun c => if c = 'A' then 'a' else c }

/-- A pattern in two fields that agree. -/
example : (lang c78_lowA).leaf [['t'], ['u']] (.wild ['A', '*']) =
    anyOf ([['t'], ['u']].map (fun f => (lang c78_lowA).leaf [f] (.wild ['A', '*']))) := by
  refine c78_fields_partial c78_lowA ?_ (.wild ['A', '*']) ⟨?_, fun a b => no_pair (by decide), fun a w b e => ?_⟩
    (fun a o x y b e => ?_) [['t'], ['u']] (by decide) (by decide) rfl
  · intro c
    by_cases h : c = 'A' <;> simp [c78_lowA, h]
  · intro w h
    simp [QLeaf.written] at h
    subst h
    decide
  · have := congrArg List.length e
    simp [QLeaf.written] at this
    omega
  · have := congrArg List.length e
    simp [QLeaf.written] at this
    omega

#print axioms c78_fields_partial
#print axioms c78_word
#print axioms c78_fuzzy
#print axioms c78_phrase_partial
#print axioms c78_place
#print axioms c78_wild
#print axioms c78_range
#print axioms c78_pattern_follows_other_field
#print axioms c78_range_follows_other_field
#print axioms c78_choice_follows_other_field
#print axioms c78_star_is_everything
end Ferret.Props
