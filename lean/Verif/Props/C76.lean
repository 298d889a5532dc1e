import Verif.Lemmas.QRun
import Verif.Lemmas.QClean
import Verif.Lemmas.QSame

/-!
C76: the query parser ends on every text, within its memory for tame texts, and every query it gives is what
the text means, read as the query language says; and the texts that are not safe.
-/

namespace Ferret.Props
open Ferret Ferret.QP Ferret.Spec

/-- The tokens of a text. -/
def qTokens (cfg : Cfg) (s : List Char) : Res (List LexTok) := lexAll cfg.keywords s.length (s.length + 1) s

theorem c76_env {cfg : Cfg} {s : List Char} {ts : List LexTok}
    (hlow : ∀ c, cfg.lower (cfg.lower c) = cfg.lower c) (hc : NoColons s ∨ s.length < 255)
    (hts : qTokens cfg s = .ok ts) (ht : QTame (ts.map LexTok.spec)) :
    Env cfg ts ∧ Lexed cfg.keywords s.length s ts ∧ ts.length ≤ s.length := by
  obtain ⟨ts', e1, e2, e3⟩ := lexAll_lexed (keys := cfg.keywords) (s.length + 1) s (Nat.lt_succ_self _)
    (Nat.le_refl _) hc
  unfold qTokens at hts
  rw [e1] at hts
  cases hts
  exact ⟨⟨fun t h => (e2.shaped t h).1, fun t h => (e2.shaped t h).2, ht, hlow⟩, e2, e3⟩

/-- Parsing a text whose tokens are tame ends, whatever its length, after at most twenty turns for each
character and twenty more, and stays within the memory of the parser. If the bounds of all ranges are in order,
the stack of fields is as it was before and the parser does not crash; with the setting to handle errors there
is then always a query. Missing: texts that are not tame (`c76_bar_after_gap`, `c76_slop`, `c76_long_word`), long
texts with two colons side by side (`c75_colons_overflow`), and ranges that are out of order
(`c76_range_leaves_fields`). -/
theorem c76_safe_partial (cfg : Cfg) (hlow : ∀ c, cfg.lower (cfg.lower c) = cfg.lower c) (text s : List Char)
    (ts : List LexTok) (fuel : Nat) (hs : qpText cfg text = .ok s) (hc : NoColons s ∨ s.length < 255)
    (hts : qTokens cfg s = .ok ts) (ht : QTame (ts.map LexTok.spec)) (hf : 20 * s.length + 20 ≤ fuel) :
    ∃ left reply, qpParse cfg fuel [] text = .ok (left, reply) ∧
      (QOrdered cfg.inOrder cfg.lower (ts.map LexTok.spec) →
        left = [] ∧ reply ≠ .crash ∧ (cfg.handleErrors = true → ∃ q, reply = .query q)) := by
  obtain ⟨E, hl, hlen⟩ := c76_env hlow hc hts ht
  obtain ⟨e, e1, e2⟩ := parse_start E hl (n := fuel) (by omega)
  have hbad : ∃ r, badQuery cfg s = .ok r := leafQ_word cfg cfg.defFields s
  obtain ⟨r, hr⟩ := hbad
  unfold qpParse
  rw [if_neg (by simp), hs, Res.ok_bind, e1, Res.ok_bind]
  have hfin : ∀ bad res, ∃ reply, finishParse cfg s [] bad res = .ok ([], reply) ∧ reply ≠ .crash ∧
      (cfg.handleErrors = true → ∃ q, reply = .query q) := by
    intro bad res
    unfold finishParse
    cases res with
    | some q => exact ⟨_, rfl, nofun, fun _ => ⟨q, rfl⟩⟩
    | none =>
      simp only []
      by_cases hh : cfg.handleErrors = true
      · rw [if_pos hh, if_neg (by simp), hr]
        exact ⟨_, rfl, nofun, fun _ => ⟨_, rfl⟩⟩
      · rw [if_neg hh]
        split
        · exact ⟨_, rfl, nofun, fun h => absurd h hh⟩
        · exact ⟨_, rfl, nofun, fun h => absurd h hh⟩
  match e, e2 with
  | .accept p, ⟨h1, h2⟩ =>
    simp only [h1, List.dropLast_singleton]
    obtain ⟨reply, f1, f2, f3⟩ := hfin false p.result
    exact ⟨_, reply, f1, fun _ => ⟨rfl, f2, f3⟩⟩
  | .error p, _ =>
    obtain ⟨reply, f1, f2, f3⟩ := hfin true none
    exact ⟨_, reply, f1, fun _ => ⟨rfl, f2, f3⟩⟩
  | .failed p, h =>
    have hfin' : ∃ left reply, finishParse cfg s p.fields.dropLast true none = .ok (left, reply) := by
      unfold finishParse
      simp only []
      by_cases hh : cfg.handleErrors = true
      · rw [if_pos hh]
        split
        · exact ⟨_, _, rfl⟩
        · rw [hr]; exact ⟨_, _, rfl⟩
      · rw [if_neg hh, if_pos trivial]
        exact ⟨_, _, rfl⟩
    obtain ⟨left, reply, f1⟩ := hfin'
    exact ⟨left, reply, f1, fun ho => absurd ho h⟩

/-- Every query given for a tame text is what the text means: there is a tree of the query language that is
written with exactly the tokens of the text, and the query is what that tree means with the default fields in
force (nothing, if nothing is left of it, gives the query that finds nothing). Only with the setting to handle
errors may it be the query for the text as plain words instead. -/
theorem c76_sound_partial (cfg : Cfg) (hlow : ∀ c, cfg.lower (cfg.lower c) = cfg.lower c) (text s : List Char)
    (ts : List LexTok) (fuel : Nat) (hs : qpText cfg text = .ok s) (hc : NoColons s ∨ s.length < 255)
    (hts : qTokens cfg s = .ok ts) (ht : QTame (ts.map LexTok.spec)) (hf : 20 * s.length + 20 ≤ fuel)
    (left : List (List Fld)) (q : Qry) (hq : qpParse cfg fuel [] text = .ok (left, .query q)) :
    (∃ T : QClauses, T.written = ts.map LexTok.spec ∧ boolOf (T.meant (lang cfg) cfg.defFields) = some q) ∨
      (if cfg.handleErrors then ∃ r, badQuery cfg s = .ok r ∧ q = r.getD (.bool [] false)
        else q = .bool [] false ∧ (ts = [] ∨ ∃ T : QClauses, T.written = ts.map LexTok.spec ∧
          boolOf (T.meant (lang cfg) cfg.defFields) = none)) := by
  obtain ⟨E, hl, hlen⟩ := c76_env hlow hc hts ht
  obtain ⟨e, e1, e2⟩ := parse_start E hl (n := fuel) (by omega)
  unfold qpParse at hq
  rw [if_neg (by simp), hs, Res.ok_bind, e1, Res.ok_bind] at hq
  have hfin : ∀ lf bad, finishParse cfg s lf bad none = .ok (left, .query q) →
      (if cfg.handleErrors then ∃ r, badQuery cfg s = .ok r ∧ q = r.getD (.bool [] false)
        else q = .bool [] false ∧ bad = false) := by
    intro lf bad h
    unfold finishParse at h
    simp only [] at h
    by_cases hh : cfg.handleErrors = true
    · rw [if_pos hh] at h ⊢
      split at h
      · cases h
      · obtain ⟨r, g1, g2⟩ := Res.bind_eq_ok.1 h
        cases g2
        exact ⟨r, g1, rfl⟩
    · rw [if_neg hh] at h ⊢
      cases bad with
      | true => cases h
      | false => cases h; exact ⟨rfl, rfl⟩
  match e, e2 with
  | .accept p, ⟨h1, h2⟩ =>
    simp only [] at hq
    cases hr : p.result with
    | some q' =>
      rw [hr] at hq h2
      cases hq
      rcases h2 with ⟨-, h2⟩ | ⟨T, h2, h3⟩
      · cases h2
      · exact Or.inl ⟨T, h2, h3.symm⟩
    | none =>
      rw [hr] at hq h2
      have := hfin _ _ hq
      right
      by_cases hh : cfg.handleErrors = true
      · rw [if_pos hh] at this ⊢; exact this
      · rw [if_neg hh] at this ⊢
        refine ⟨this.1, ?_⟩
        rcases h2 with ⟨h2, -⟩ | ⟨T, h2, h3⟩
        · exact Or.inl h2
        · exact Or.inr ⟨T, h2, h3.symm⟩
  | .error p, _ =>
    have := hfin _ _ hq
    right
    by_cases hh : cfg.handleErrors = true
    · rw [if_pos hh] at this ⊢; exact this
    · rw [if_neg hh] at this; cases this.2
  | .failed p, _ =>
    have := hfin _ _ hq
    right
    by_cases hh : cfg.handleErrors = true
    · rw [if_pos hh] at this ⊢; exact this
    · rw [if_neg hh] at this; cases this.2

/-- A parser for examples: an index with the fields `t` and `b`, where `t` is searched by default, words are
one token each, and bounds are compared by their first characters. -/
def c76_cfg : Cfg where
  toks _ w := [(w, 1)]
  tokenized _ := true
  lower c := c
  inOrder a b := decide ((a.headD 'a').toNat ≤ (b.headD 'a').toNat)
  allFields := [['t'], ['b']]
  defFields := [['t']]
  orDefault := true
  wildLower := false
  clean := true
  handleErrors := false
  anyFields := false
  keywords := true

/-- With the setting to handle errors. -/
def c76_cfg' : Cfg := { c76_cfg with handleErrors := true }

/-- `|` behind a gap that starts a phrase reads before the start of the positions of the phrase. -/
theorem c76_bar_after_gap : qpParse c76_cfg 1000 [] ['"', '<', '>', '|', 'f', '"'] = .ub :=
  sameReply_eq (by decide +kernel)

/-- A slop that is no number is used without having been set. -/
theorem c76_slop : qpParse c76_cfg 1000 [] ['"', 'a', ' ', 'b', '"', '~', 'x'] = .ub :=
  sameReply_eq (by decide +kernel)

/-- A word of 255 characters is read after it was freed if a second word follows. -/
theorem c76_long_word : qpParse c76_cfg 1000 [] (List.replicate 255 'a' ++ [' ', 'b']) = .ub :=
  sameReply_eq (by decide +kernel)

/-- Putting a pattern in lower case writes a byte behind its terminating zero: with 254 characters, which fit with the zero, that byte is
outside of the buffer. -/
theorem c76_pattern_limit (cfg : Cfg) (hw : cfg.wildLower = true) (f : Fld) (hf : cfg.tokenized f = true) (qlen : Nat) (w : List Char) :
    (w.length = 254 → getWildQ cfg qlen false f w = .ub) ∧ (w.length < 254 → getWildQ cfg qlen false f w ≠ .ub) := by
  have hlo : lowers cfg f = true := by simp [lowers, hw, hf]
  constructor
  · intro hl
    unfold getWildQ lowerStr
    rw [if_pos hlo, hl]
    rfl
  · intro hl
    unfold getWildQ lowerStr
    rw [if_pos hlo, if_neg (c := false = true) (by decide), if_pos (show w.length + 1 < maxWordSize by unfold maxWordSize; omega)]
    simp only [Res.ok_bind]
    split
    · nofun
    · split <;> nofun

/-- In a field without tokens a pattern is used as it was written, whatever its length. -/
theorem c76_pattern_untokenized (cfg : Cfg) (f : Fld) (hf : cfg.tokenized f = false) (qlen : Nat) (dyn : Bool) (w : List Char) :
    ∃ q, getWildQ cfg qlen dyn f w = .ok (some q, w) ∧ (q = .all ∨ q = .pre f w.dropLast ∨ q = .wild f w) := by
  have hlo : lowers cfg f = false := by simp [lowers, hf]
  unfold getWildQ
  rw [if_neg (by rw [hlo]; decide)]
  simp only [Res.ok_bind]
  split
  · exact ⟨_, rfl, Or.inl rfl⟩
  · split
    · exact ⟨_, rfl, Or.inr (Or.inl rfl)⟩
    · exact ⟨_, rfl, Or.inr (Or.inr rfl)⟩

/-- So it is for a text: with a pattern of 254 characters the parser writes outside of its memory, with one of 253 it gives a query. -/
theorem c76_pattern_overflow :
    qpParse { c76_cfg with wildLower := true, tokenized := fun _ => true } 1000 [] (List.replicate 253 'a' ++ ['*']) = .ub ∧
    qpParse { c76_cfg with wildLower := true, tokenized := fun _ => true } 1000 [] (List.replicate 252 'a' ++ ['*']) = .ok ([], .query (.pre ['t'] (List.replicate 252 'a'))) := by
  constructor <;> exact sameReply_eq (by decide +kernel)

/-- A range out of order in a clause for a field is an error that leaves the field in force; the next text
parsed with this parser then crashes it, and with the setting to handle errors so does this one. -/
theorem c76_range_leaves_fields :
    qpParse c76_cfg 1000 [] ['b', ':', '[', 'z', ' ', 'a', ']'] = .ok ([[['b']]], .parseError) ∧
    qpParse c76_cfg 1000 [[['b']]] ['x'] = .ok ([[['b']]], .crash) ∧
    qpParse c76_cfg' 1000 [] ['b', ':', '[', 'z', ' ', 'a', ']'] = .ok ([[['b']]], .crash) := by
  refine ⟨?_, ?_, ?_⟩ <;> exact sameReply_eq (by decide +kernel)

/-- AND binds no more than OR, and makes only a first clause before it a demand: in `a OR b AND c` only `c` is
one. -/
theorem c76_and_after_or :
    qpParse c76_cfg 1000 [] ['a', ' ', 'O', 'R', ' ', 'b', ' ', 'A', 'N', 'D', ' ', 'c'] =
      .ok ([], .query (.bool [(.should, .term ['t'] ['a']), (.should, .term ['t'] ['b']),
        (.must, .term ['t'] ['c'])] false)) :=
  sameReply_eq (by decide +kernel)

/-! ### A text that meets the conditions -/

/-- `b|t:(a -"x <> y"~3) z^2 [a c}` -/
def c76_text : List Char :=
  ['b', '|', 't', ':', '(', 'a', ' ', '-', '"', 'x', ' ', '<', '>', ' ', 'y', '"', '~', '3', ')', ' ', 'z', '^',
   '2', ' ', '[', 'a', ' ', 'c', '}']

def c76_tokens : List QTok :=
  [.word ['b'], .sym '|', .word ['t'], .sym ':', .sym '(', .word ['a'], .not, .sym '"', .word ['x'], .sym '<',
   .sym '>', .word ['y'], .sym '"', .sym '~', .word ['3'], .sym ')', .word ['z'], .sym '^', .word ['2'], .sym '[',
   .word ['a'], .word ['c'], .sym '}']

def c76_lexed : List LexTok :=
  c76_tokens.map (fun
    | .word w => ⟨.word, true, w, false⟩
    | .sym c => plainTok (.ch c)
    | _ => plainTok .not)

theorem no_pair {α : Type} {ts a b : List α} {x y : α} (h : ∀ n, n < ts.length → ¬ (ts[n]? = some x ∧ ts[n + 1]? = some y)) :
    ts ≠ a ++ x :: y :: b := by
  rintro rfl
  exact h a.length (by simp) (by simp)

example : qpText c76_cfg c76_text = .ok c76_text ∧ c76_text.length < 255 ∧
    qTokens c76_cfg c76_text = .ok c76_lexed ∧ c76_lexed.map LexTok.spec = c76_tokens ∧
    QTame c76_tokens ∧ QOrdered c76_cfg.inOrder c76_cfg.lower c76_tokens := by
  refine ⟨by decide +kernel, by decide, by decide +kernel, by decide +kernel, ⟨?_, ?_, ?_⟩, ?_⟩
  · intro w h
    simp [c76_tokens] at h
    rcases h with rfl | rfl | rfl | rfl | rfl | rfl | rfl | rfl | rfl | rfl <;> decide
  · intro a b
    exact no_pair (by decide +kernel)
  · intro a w b e
    have h2 : ∀ n, n < c76_tokens.length → c76_tokens[n]? = some (.sym '"') → c76_tokens[n + 1]? = some (.sym '~') →
        c76_tokens[n + 2]? = some (.word ['3']) := by decide +kernel
    have hl := congrArg List.length e
    rw [List.length_append] at hl
    have := h2 a.length (by rw [hl]; simp) (by rw [e]; simp) (by rw [e]; simp)
    rw [e] at this
    simp at this
    subst this
    exact ⟨[], ['3'], rfl, Or.inl rfl, by simp, by decide, by decide⟩
  · intro a o x y b e ho
    have h2 : ∀ n, n < c76_tokens.length →
        (c76_tokens[n]? = some (.sym '[') ∨ c76_tokens[n]? = some (.sym '{')) → n = 19 := by decide +kernel
    have hl := congrArg List.length e
    rw [List.length_append] at hl
    have := h2 a.length (by rw [hl]; simp) (by rw [e]; simpa using ho)
    have e1 : c76_tokens[19 + 1]? = some (.word x) := by rw [e, ← this]; simp
    have e2 : c76_tokens[19 + 2]? = some (.word y) := by rw [e, ← this]; simp
    simp [c76_tokens] at e1 e2
    subst e1 e2
    decide

/-- It gives a query for which both fields are searched in the parentheses. -/
example : qpParse c76_cfg 1000 [] c76_text = .ok ([], .query (.bool
    [(.should, .bool
      [(.should, .bool [(.should, .term ['b'] ['a']), (.should, .term ['t'] ['a'])] false),
       (.mustNot, .bool [(.should, .phrase ['b'] [(0, [['x']]), (2, [['y']])] 3),
          (.should, .phrase ['t'] [(0, [['x']]), (2, [['y']])] 3)] false)] false),
     (.should, .boost ['2'] (.term ['t'] ['z'])),
     (.should, .range ['t'] (some ['a']) (some ['c']) true false)] false)) :=
  sameReply_eq (by decide +kernel)

example : ∀ c, c76_cfg.lower (c76_cfg.lower c) = c76_cfg.lower c := fun _ => rfl

#print axioms c76_safe_partial
#print axioms c76_sound_partial
#print axioms c76_bar_after_gap
#print axioms c76_slop
#print axioms c76_long_word
#print axioms c76_range_leaves_fields
#print axioms c76_and_after_or
#print axioms c76_pattern_limit
#print axioms c76_pattern_overflow
#print axioms c76_pattern_untokenized
end Ferret.Props
