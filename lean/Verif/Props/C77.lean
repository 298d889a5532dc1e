import Verif.Props.C76
import Verif.Lemmas.QWrite

/-!
C77: every query that can be written in the query language is read as what it means; every tree of the language
can be typed; and what is written has one meaning.
-/

namespace Ferret.Props
open Ferret Ferret.QP Ferret.Spec

/-- What a text comes to for which the parser has a result. -/
theorem c77_finish {cfg : Cfg} {s : List Char} (r : Option Qry) :
    (∀ q, r = some q → finishParse cfg s [] false r = .ok ([], .query q)) ∧
    (r = none → cfg.handleErrors = false → finishParse cfg s [] false r = .ok ([], .query (.bool [] false))) := by
  refine ⟨?_, ?_⟩
  · rintro q rfl; rfl
  · rintro rfl h
    unfold finishParse
    simp [h]

/-- A text whose words and marks are those of a tree of the query language is parsed to exactly what the tree
means with the default fields in force; if nothing is left of it, to the query that finds nothing (without the
setting to handle errors). Missing: texts that are not tame, and ranges out of order, as in C76; a fuzzy word
without similarity right before a word, which takes that word as its similarity (`c77_fuzzy_takes_word`); and
trees that nest too deep for the stack of the parser, which has ten thousand places. -/
theorem c77_read_partial (cfg : Cfg) (hlow : ∀ c, cfg.lower (cfg.lower c) = cfg.lower c) (text s : List Char)
    (ts : List LexTok) (fuel : Nat) (hs : qpText cfg text = .ok s) (hc : NoColons s ∨ s.length < 255)
    (hts : qTokens cfg s = .ok ts) (hf : 20 * s.length + 20 ≤ fuel)
    (T : QClauses) (hT : T.written = ts.map LexTok.spec) (ht : QTame T.written)
    (ho : QOrdered cfg.inOrder cfg.lower T.written) (hap : T.apart = true) (hroom : T.room < 9999) :
    (∀ q, boolOf (T.meant (lang cfg) cfg.defFields) = some q → qpParse cfg fuel [] text = .ok ([], .query q)) ∧
    (boolOf (T.meant (lang cfg) cfg.defFields) = none → cfg.handleErrors = false →
      qpParse cfg fuel [] text = .ok ([], .query (.bool [] false))) := by
  obtain ⟨-, hl, hlen⟩ := c76_env hlow hc hts (by rw [← hT]; exact ht)
  obtain ⟨p, e1, e2, e3⟩ := parse_tree hlow hl T hT.symm ⟨ht, ho⟩ hap hroom (fuel := fuel) (by omega)
  unfold qpParse
  rw [if_neg (by simp), hs, Res.ok_bind, e1, Res.ok_bind]
  simp only [e2, List.dropLast_singleton, e3]
  exact c77_finish _

/-- Every tree of the query language can be typed: with special characters, blanks and backslashes in its words
escaped, the text that is written for it is parsed to exactly what the tree means. Its words may not be empty or
keywords, and where texts are cleaned, words of phrases may not need escapes. Missing: as for
`c77_read_partial`; and words that are keywords, which no text can ask for while keywords are on
(`c75_keywords_not_escaped`). -/
theorem c77_typed_partial (cfg : Cfg) (hlow : ∀ c, cfg.lower (cfg.lower c) = cfg.lower c) (fuel : Nat)
    (T : QClauses) (hk : QTypable cfg.keywords T.written) (hp : cfg.clean = true → T.plain = true)
    (ht : QTame T.written) (ho : QOrdered cfg.inOrder cfg.lower T.written) (hap : T.apart = true)
    (hroom : T.room < 9999) (hf : 20 * (typed T.written).length + 20 ≤ fuel) :
    (∀ q, boolOf (T.meant (lang cfg) cfg.defFields) = some q →
      qpParse cfg fuel [] (typed T.written) = .ok ([], .query q)) ∧
    (boolOf (T.meant (lang cfg) cfg.defFields) = none → cfg.handleErrors = false →
      qpParse cfg fuel [] (typed T.written) = .ok ([], .query (.bool [] false))) := by
  obtain ⟨lts, hl, e⟩ := typed_lexed (keys := cfg.keywords) (qlen := (typed T.written).length) T.written []
    (Or.inl rfl) (marked_clauses T) hk (Nat.le_refl _)
  rw [List.nil_append] at hl
  have hs : qpText cfg (typed T.written) = .ok (typed T.written) := by
    unfold qpText
    split
    · rename_i h; exact clear_clean (clear_clauses T (hp h))
    · rfl
  have hlen : lts.length ≤ (typed T.written).length := by
    have h1 := congrArg List.length e
    rw [List.length_map] at h1
    rw [h1, typed, List.length_flatMap]
    generalize T.written = ts
    induction ts with
    | nil => simp
    | cons t ts ih =>
      have : 1 ≤ t.typed.length := by
        cases t <;> simp [QTok.typed]
        split <;> simp
      simp only [List.length_cons, List.map_cons, List.sum_cons]
      omega
  obtain ⟨p, e1, e2, e3⟩ := parse_tree hlow hl T e ⟨ht, ho⟩ hap hroom (fuel := fuel) (by omega)
  unfold qpParse
  rw [if_neg (by simp), hs, Res.ok_bind, e1, Res.ok_bind]
  simp only [e2, List.dropLast_singleton, e3]
  exact c77_finish _

/-- What is written has one meaning: trees that are written the same mean the same. Missing: as for
`c77_typed_partial`. -/
theorem c77_one_meaning_partial (cfg : Cfg) (hlow : ∀ c, cfg.lower (cfg.lower c) = cfg.lower c) (T T' : QClauses)
    (he : T.written = T'.written) (hk : QTypable cfg.keywords T.written) (ht : QTame T.written)
    (ho : QOrdered cfg.inOrder cfg.lower T.written) (hap : T.apart = true) (hap' : T'.apart = true)
    (hroom : T.room < 9999) (hroom' : T'.room < 9999) :
    boolOf (T.meant (lang cfg) cfg.defFields) = boolOf (T'.meant (lang cfg) cfg.defFields) := by
  obtain ⟨lts, hl, e⟩ := typed_lexed (keys := cfg.keywords) (qlen := (typed T.written).length) T.written []
    (Or.inl rfl) (marked_clauses T) hk (Nat.le_refl _)
  obtain ⟨p, e1, -, e3⟩ := parse_tree hlow hl T e ⟨ht, ho⟩ hap hroom (fuel := 20 * lts.length + 20) (Nat.le_refl _)
  obtain ⟨p', f1, -, f3⟩ := parse_tree hlow hl T' (by rw [e, he]) (by rw [← he]; exact ⟨ht, ho⟩) hap' hroom'
    (fuel := 20 * lts.length + 20) (Nat.le_refl _)
  rw [e1] at f1
  cases f1
  rw [← e3, f3]

/-! ### Witnesses and examples -/

/-- `a~ b`: the two clauses `a~` and `b`, which is written like the one clause `a~b`. -/
def c77_two : QClauses := .more (.one (.mk .none (.leaf (.fuzzy ['a'] none)) none)) .next (.mk .none (.leaf (.word ['b'])) none)

def c77_fuzzy : QClauses := .one (.mk .none (.leaf (.fuzzy ['a'] (some ['b']))) none)

/-- A word behind `a~` is taken as its similarity, even behind a blank: it is not searched for. -/
theorem c77_fuzzy_takes_word : c77_two.written = c77_fuzzy.written ∧ c77_two.apart = false ∧
    qpParse c76_cfg 1000 [] (typed c77_two.written) = .ok ([], .query (.fuzzy ['t'] ['a'] (some ['b']))) ∧
    boolOf (c77_two.meant (lang c76_cfg) c76_cfg.defFields) =
      some (.bool [(.should, .fuzzy ['t'] ['a'] none), (.should, .term ['t'] ['b'])] false) := by
  refine ⟨rfl, rfl, sameReply_eq (by decide +kernel), ?_⟩
  rfl

/-- `b|t:(a -"x <> y"~3) z\ z^2 [a c} *:c?d* +(() OR e~)` as a tree. -/
def c77_tree : QClauses :=
  .more (.more (.more (.more (.one
    (.mk .none (.within ['b'] [['t']] (.parens (.more (.one (.mk .none (.leaf (.word ['a'])) none)) .next
      (.mk .not (.leaf (.phrase (some ['x']) [.gap, .next ['y']] (some ['3']))) none)))) none))
    .next (.mk .none (.leaf (.word ['z', ' ', 'z'])) (some ['2'])))
    .next (.mk .none (.leaf (.between ['a'] ['c'] true false)) none))
    .next (.mk .none (.everywhere (.leaf (.wild ['c', '?', 'd', '*']))) none))
    .next (.mk .req (.parens (.more (.one (.mk .none .nothing none)) .or
      (.mk .none (.leaf (.fuzzy ['e'] none)) none))) none)

example : String.ofList (typed c77_tree.written) =
    "b | t : ( a - \" x <> y \" ~ 3 ) z\\ z ^ 2 [ a c } *: c?d* + ( ( ) || e ~ ) " := by decide +kernel

theorem c77_sample : QTypable true c77_tree.written ∧ c77_tree.plain = true ∧ QTame c77_tree.written ∧
    QOrdered c76_cfg.inOrder c76_cfg.lower c77_tree.written ∧ c77_tree.apart = true ∧ c77_tree.room < 9999 := by
  have e : c77_tree.written = [.word ['b'], .sym '|', .word ['t'], .sym ':', .sym '(', .word ['a'], .not, .sym '"',
    .word ['x'], .sym '<', .sym '>', .word ['y'], .sym '"', .sym '~', .word ['3'], .sym ')', .word ['z', ' ', 'z'],
    .sym '^', .word ['2'], .sym '[', .word ['a'], .word ['c'], .sym '}', .sym '*', .sym ':', .wild ['c', '?', 'd', '*'],
    .req, .sym '(', .sym '(', .sym ')', .or, .word ['e'], .sym '~', .sym ')'] := rfl
  rw [e]
  refine ⟨⟨?_, ?_⟩, by decide, ⟨?_, ?_, ?_⟩, ?_, rfl, by decide⟩
  · intro w h
    simp at h
    rcases h with rfl | rfl | rfl | rfl | rfl | rfl | rfl | rfl | rfl | rfl | rfl <;> decide
  · intro w h
    simp at h
    subst h
    decide
  · intro w h
    simp at h
    rcases h with (rfl | rfl | rfl | rfl | rfl | rfl | rfl | rfl | rfl | rfl | rfl) | rfl <;> decide
  · intro a b
    exact no_pair (by decide +kernel)
  · intro a w b e'
    generalize hts : ([.word ['b'], .sym '|', .word ['t'], .sym ':', .sym '(', .word ['a'], .not, .sym '"',
      .word ['x'], .sym '<', .sym '>', .word ['y'], .sym '"', .sym '~', .word ['3'], .sym ')', .word ['z', ' ', 'z'],
      .sym '^', .word ['2'], .sym '[', .word ['a'], .word ['c'], .sym '}', .sym '*', .sym ':', .wild ['c', '?', 'd', '*'],
      .req, .sym '(', .sym '(', .sym ')', .or, .word ['e'], .sym '~', .sym ')'] : List QTok) = ts at e'
    have h2 : ∀ n, n < ts.length → ts[n]? = some (.sym '"') → ts[n + 1]? = some (.sym '~') →
        ts[n + 2]? = some (.word ['3']) := by subst hts; decide +kernel
    have hl := congrArg List.length e'
    rw [List.length_append] at hl
    have := h2 a.length (by rw [hl]; simp) (by rw [e']; simp) (by rw [e']; simp)
    rw [e'] at this
    simp at this
    subst this
    exact ⟨[], ['3'], rfl, Or.inl rfl, by simp, by decide, by decide⟩
  · intro a o x y b e' ho
    generalize hts : ([.word ['b'], .sym '|', .word ['t'], .sym ':', .sym '(', .word ['a'], .not, .sym '"',
      .word ['x'], .sym '<', .sym '>', .word ['y'], .sym '"', .sym '~', .word ['3'], .sym ')', .word ['z', ' ', 'z'],
      .sym '^', .word ['2'], .sym '[', .word ['a'], .word ['c'], .sym '}', .sym '*', .sym ':', .wild ['c', '?', 'd', '*'],
      .req, .sym '(', .sym '(', .sym ')', .or, .word ['e'], .sym '~', .sym ')'] : List QTok) = ts at e'
    have h2 : ∀ n, n < ts.length → (ts[n]? = some (.sym '[') ∨ ts[n]? = some (.sym '{')) → n = 19 := by
      subst hts; decide +kernel
    have hl := congrArg List.length e'
    rw [List.length_append] at hl
    have := h2 a.length (by rw [hl]; simp) (by rw [e']; simpa using ho)
    have e1 : ts[19 + 1]? = some (.word x) := by rw [e', ← this]; simp
    have e2 : ts[19 + 2]? = some (.word y) := by rw [e', ← this]; simp
    subst hts
    simp at e1 e2
    subst e1 e2
    decide

/-- The theorem applies to the sample. -/
example (q : Qry) (hq : boolOf (c77_tree.meant (lang c76_cfg) c76_cfg.defFields) = some q) :
    qpParse c76_cfg 5000 [] (typed c77_tree.written) = .ok ([], .query q) :=
  (c77_typed_partial c76_cfg (fun _ => rfl) 5000 c77_tree c77_sample.1 (fun _ => c77_sample.2.1) c77_sample.2.2.1
    c77_sample.2.2.2.1 c77_sample.2.2.2.2.1 c77_sample.2.2.2.2.2 (by decide +kernel)).1 q hq

example : (boolOf (c77_tree.meant (lang c76_cfg) c76_cfg.defFields)).isSome = true := by rfl

#print axioms c77_read_partial
#print axioms c77_typed_partial
#print axioms c77_one_meaning_partial
#print axioms c77_fuzzy_takes_word
end Ferret.Props
