import Verif.Lemmas.QueryRoundTree
import Verif.Props.C77
import Verif.Props.C86

/-!
C87: the text of a query, parsed, is the query again.
-/

namespace Ferret.Props

open Ferret.Spec
open Ferret.QP

/-- The text that is written for a query, given to a parser with the same default field, gives back exactly the query: every
term, phrase with its gaps and slop, prefix, pattern, fuzzy word with its similarity, range, and boolean query with the signs of
its clauses, and all boosts. Missing: words that would need escapes or that the analyzer changes, boolean queries with fewer
than two clauses, phrases with fewer than two places or not in order from 0, and clauses without a sign behind a text that ends
in `~` (for what they are read as see the witnesses below); queries for any of several words, for constant scores, with filters
and for spans, which the query language cannot ask for; parsers that read clauses without a sign as demands, or have several
default fields; and boolean queries nested more than 1600 deep. -/
theorem c87_round_partial (cfg : Cfg) (hlow : ∀ c, cfg.lower (cfg.lower c) = cfg.lower c) (hor : cfg.orDefault = true) (df : Fld) (hdf : cfg.defFields = [df])
    {N : Type} {nm : Nums N} {R : ReadNum N} {qs : List (Int × List (List Char)) → List (Int × List (List Char))} (hqs : SortsPlaces qs) (q : TQ N)
    (hr : ReadsBack cfg nm R df q) (hn : q.nesting ≤ 1600) (fuel : Nat) (hf : 20 * (textOf nm qs (some df) q).length + 20 ≤ fuel) :
    ∃ r, qpParse cfg fuel [] (textOf nm qs (some df) q) = .ok ([], .query r) ∧ askedFor R r = q := by
  obtain ⟨T, m, t1, t2, t3, t4, t5⟩ := (QRound.back_ok (cfg := cfg) (qlen := (textOf nm qs (some df) q).length) (nm := nm) (R := R) (df := df) hor hqs q hr).2
  have hend : Lexed cfg.keywords (textOf nm qs (some df) q).length [] [] := .done (t := plainTok .eof) (r := []) rfl rfl
  obtain ⟨lts, hl, e⟩ := t1.reads.2 (Nat.le_refl _) [] [] (Or.inl rfl) hend
  rw [List.append_nil, List.append_nil] at hl
  have hgood := (t1.fine [] ⟨by simp, by simp⟩ trivial).good
  rw [List.append_nil] at hgood
  have hlen : lts.length ≤ (textOf nm qs (some df) q).length := by
    have := congrArg List.length e
    rw [List.length_map] at this
    rw [this]
    exact t1.reads.1
  have hs : qpText cfg (textOf nm qs (some df) q) = .ok (textOf nm qs (some df) q) := by
    unfold qpText
    split
    · exact clear_clean t1.clear
    · rfl
  obtain ⟨p, e1, e2, e3⟩ := parse_tree hlow hl T e hgood t2 (by omega) (fuel := fuel) (by omega)
  refine ⟨m, ?_, t5⟩
  unfold qpParse
  rw [if_neg (by simp), hs, Res.ok_bind, e1, Res.ok_bind]
  simp only [e2, List.dropLast_singleton, e3]
  refine (c77_finish _).1 m ?_
  rw [hdf]
  exact t4

/-- So for what `to_s` gives, which then stays inside its buffers. Missing: as for `c87_round_partial`. -/
theorem c87_to_s_partial (cfg : Cfg) (hlow : ∀ c, cfg.lower (cfg.lower c) = cfg.lower c) (hor : cfg.orDefault = true) (df : Fld) (hdf : cfg.defFields = [df])
    {N : Type} {nm : Nums N} (hnm : nm.Ok) {R : ReadNum N} {qs : List (Int × List (List Char)) → List (Int × List (List Char))} (hqs : SortsPlaces qs) (q : TQ N)
    (hw : Showable nm q) (hr : ReadsBack cfg nm R df q) (hn : q.nesting ≤ 1600) :
    ∃ s, QText.toS nm qs (some df) q = .ok s ∧
      ∀ fuel, 20 * s.length + 20 ≤ fuel → ∃ r, qpParse cfg fuel [] s = .ok ([], .query r) ∧ askedFor R r = q :=
  ⟨_, c86_text_partial hnm hqs (some df) q hw, fun fuel hf => c87_round_partial cfg hlow hor df hdf hqs q hr hn fuel hf⟩

/-- Queries that are read back and have the same text are the same: their texts can be used to tell them apart. Missing: as for
`c87_round_partial`. -/
theorem c87_text_tells_partial (cfg : Cfg) (hlow : ∀ c, cfg.lower (cfg.lower c) = cfg.lower c) (hor : cfg.orDefault = true) (df : Fld) (hdf : cfg.defFields = [df])
    {N : Type} {nm : Nums N} {R : ReadNum N} {qs : List (Int × List (List Char)) → List (Int × List (List Char))} (hqs : SortsPlaces qs) (q q' : TQ N)
    (hr : ReadsBack cfg nm R df q) (hr' : ReadsBack cfg nm R df q') (hn : q.nesting ≤ 1600) (hn' : q'.nesting ≤ 1600)
    (h : textOf nm qs (some df) q = textOf nm qs (some df) q') : q = q' := by
  obtain ⟨r, e1, e2⟩ := c87_round_partial cfg hlow hor df hdf hqs q hr hn _ (Nat.le_refl _)
  obtain ⟨r', f1, f2⟩ := c87_round_partial cfg hlow hor df hdf hqs q' hr' hn' _ (Nat.le_refl _)
  rw [← h, e1] at f1
  cases f1
  rw [← e2, f2]

/-! ### Texts that are read as something else -/

/-- How the numbers of C86 are read. -/
def c87_read : ReadNum Nat where
  read w := match w with
    | d :: _ :: e :: _ => 2 * (d.toNat - 48) + (if e = '5' then 1 else 0)
    | _ => 0
  unit := 2
  half := 1

/-- Clauses. -/
def c87_clauses : List (Occ × TQ Nat) → TClauses Nat
  | [] => .nil
  | (o, q) :: cs => .cons o q (c87_clauses cs)

/-- A term in the default field. -/
def c87_term (s : String) : TQ Nat := .term ['t'] s.toList 2

/-- The text of a query for the default field `t`. -/
def c87_text (q : TQ Nat) : List Char := textOf c86_nums sortPlaces (some ['t']) q

/-- A demand or a prohibition alone: its sign is lost, or everything is added. -/
theorem c87_one_clause :
    c87_text (.bool (c87_clauses [(.must, c87_term "a")]) 2) = ['+', 'a'] ∧ qpParse c76_cfg 1000 [] ['+', 'a'] = .ok ([], .query (.term ['t'] ['a'])) ∧
    c87_text (.bool (c87_clauses [(.mustNot, c87_term "a")]) 2) = ['-', 'a'] ∧
      qpParse c76_cfg 1000 [] ['-', 'a'] = .ok ([], .query (.bool [(.mustNot, .term ['t'] ['a']), (.must, .all)] false)) := by
  refine ⟨by decide +kernel, sameReply_eq (by decide +kernel), by decide +kernel, sameReply_eq (by decide +kernel)⟩

/-- A fuzzy word before a word takes that word as its similarity. -/
theorem c87_fuzzy_then_word :
    c87_text (.bool (c87_clauses [(.should, .fuzzy ['t'] ['a'] 1 2), (.should, c87_term "b")]) 2) = ['a', '~', ' ', 'b'] ∧
      qpParse c76_cfg 1000 [] ['a', '~', ' ', 'b'] = .ok ([], .query (.fuzzy ['t'] ['a'] (some ['b']))) := by
  refine ⟨by decide +kernel, sameReply_eq (by decide +kernel)⟩

/-- Nothing is escaped: a term with a blank is read as two, one with a colon as a term of another field, one that ends in a star
as a prefix, and one that starts with a minus as a prohibition. -/
theorem c87_not_escaped :
    c87_text (c87_term "a b") = ['a', ' ', 'b'] ∧
      qpParse c76_cfg 1000 [] ['a', ' ', 'b'] = .ok ([], .query (.bool [(.should, .term ['t'] ['a']), (.should, .term ['t'] ['b'])] false)) ∧
    c87_text (c87_term "b:a") = ['b', ':', 'a'] ∧ qpParse c76_cfg 1000 [] ['b', ':', 'a'] = .ok ([], .query (.term ['b'] ['a'])) ∧
    c87_text (c87_term "ab*") = ['a', 'b', '*'] ∧ qpParse c76_cfg 1000 [] ['a', 'b', '*'] = .ok ([], .query (.pre ['t'] ['a', 'b'])) ∧
    c87_text (c87_term "-a") = ['-', 'a'] ∧
      qpParse c76_cfg 1000 [] ['-', 'a'] = .ok ([], .query (.bool [(.mustNot, .term ['t'] ['a']), (.must, .all)] false)) := by
  refine ⟨by decide +kernel, sameReply_eq (by decide +kernel), by decide +kernel, sameReply_eq (by decide +kernel), by decide +kernel,
    sameReply_eq (by decide +kernel), by decide +kernel, sameReply_eq (by decide +kernel)⟩

/-- A parser that reads clauses without a sign as demands. -/
theorem c87_demands :
    c87_text (.bool (c87_clauses [(.should, c87_term "a"), (.should, c87_term "b")]) 2) = ['a', ' ', 'b'] ∧
      qpParse { c76_cfg with orDefault := false } 1000 [] ['a', ' ', 'b'] =
        .ok ([], .query (.bool [(.must, .term ['t'] ['a']), (.must, .term ['t'] ['b'])] false)) := by
  refine ⟨by decide +kernel, sameReply_eq (by decide +kernel)⟩

/-- A phrase with two words at the same place that were added one by one: `&` is escaped where texts are cleaned, and both are
read as one word. -/
theorem c87_same_place :
    c87_text (.phrase ['t'] [(0, [['a']]), (0, [['b']])] 0 2) = ['"', 'a', '&', 'b', '"'] ∧
      qpParse c76_cfg 1000 [] ['"', 'a', '&', 'b', '"'] = .ok ([], .query (.term ['t'] ['a', '&', 'b'])) := by
  refine ⟨by decide +kernel, sameReply_eq (by decide +kernel)⟩

/-- A phrase that does not start at place 0: only distances are written. -/
theorem c87_shifted_phrase :
    c87_text (.phrase ['t'] [(3, [['a']]), (4, [['b']])] 0 2) = c87_text (.phrase ['t'] [(0, [['a']]), (1, [['b']])] 0 2) := by decide +kernel

/-! ### A query that is read back -/

/-- `+b:x^1.5 "x <> y|z"~3 -((ab* b:a?c a~1.5 +[a c} a~)^3.0) *` -/
def c87_sample : TQ Nat :=
  .bool (c87_clauses [(.must, .term ['b'] ['x'] 3), (.should, .phrase ['t'] [(0, [['x']]), (2, [['y'], ['z']])] 3 2),
    (.mustNot, .bool (c87_clauses [(.should, .pre ['t'] ['a', 'b'] 2), (.should, .wild ['b'] ['a', '?', 'c'] 2), (.should, .fuzzy ['t'] ['a'] 3 2),
      (.must, .range ['t'] (some ['a']) (some ['c']) true false 2), (.should, .fuzzy ['t'] ['a'] 1 2)]) 6), (.should, .all 2)]) 2

example : String.ofList (c87_text c87_sample) = "+b:x^1.5 \"x <> y|z\"~3 -((ab* b:a?c a~1.5 +[a c} a~)^3.0) *" := by decide +kernel

/-- Words are plain if these checks say so. -/
theorem c87_plain {w : QWord} (h1 : w.headD ' ' ∉ qEscaped) (h2 : w.all (fun c => decide (c ∉ qEnds ∧ c ≠ '\\' ∧ c ≠ ':' ∧ c ≠ '*' ∧ c ≠ '?')) = true)
    (h3 : w ∉ qReserved) (h4 : w.length ≤ 253) : readsPlain true w := by
  refine ⟨?_, ?_, fun _ => h3, h4⟩
  · cases w with
    | nil => exact absurd h1 (by decide)
    | cons c cs => exact ⟨c, cs, rfl, h1⟩
  · intro c hc
    have := List.all_eq_true.1 h2 c hc
    simpa using this

theorem c87_same {f : Fld} {w : QWord} (h1 : w.headD ' ' ∉ qEscaped) (h2 : w.all (fun c => decide (c ∉ qEnds ∧ c ≠ '\\' ∧ c ≠ ':' ∧ c ≠ '*' ∧ c ≠ '?')) = true)
    (h3 : w ∉ qReserved) (h4 : w.length ≤ 253) : readsSame c76_cfg f w := ⟨c87_plain h1 h2 h3 h4, 1, rfl, by decide⟩

theorem c87_boost {b : Nat} (h : b = 2 ∨ b = 3 ∨ b = 6) : readsBoost c76_cfg c86_nums c87_read b := by
  rcases h with rfl | rfl | rfl
  · rfl
  · exact ⟨c87_plain (by decide +kernel) (by decide +kernel) (by decide +kernel) (by decide +kernel), by decide +kernel⟩
  · exact ⟨c87_plain (by decide +kernel) (by decide +kernel) (by decide +kernel) (by decide +kernel), by decide +kernel⟩

theorem c87_fieldB : readsField c76_cfg ['t'] ['b'] := Or.inr ⟨c87_plain (by decide) (by decide) (by decide) (by decide), Or.inr (by decide)⟩

theorem c87_sample_reads : ReadsBack c76_cfg c86_nums c87_read ['t'] c87_sample := by
  have b2 := c87_boost (b := 2) (Or.inl rfl)
  have plainA : readsPlain c76_cfg.keywords ['a'] := c87_plain (by decide) (by decide) (by decide) (by decide)
  have plainC : readsPlain c76_cfg.keywords ['c'] := c87_plain (by decide) (by decide) (by decide) (by decide)
  have same : ∀ (f : Fld) (c : Char), c ∈ ['a', 'x', 'y', 'z'] → readsSame c76_cfg f [c] := by
    intro f c hc
    simp only [List.mem_cons, List.not_mem_nil, or_false] at hc
    rcases hc with rfl | rfl | rfl | rfl <;> exact c87_same (by decide) (by decide) (by decide) (by decide)
  have inner : ReadsBack c76_cfg c86_nums c87_read ['t'] (.bool (c87_clauses [(.should, .pre ['t'] ['a', 'b'] 2), (.should, .wild ['b'] ['a', '?', 'c'] 2),
      (.should, .fuzzy ['t'] ['a'] 3 2), (.must, .range ['t'] (some ['a']) (some ['c']) true false 2), (.should, .fuzzy ['t'] ['a'] 1 2)]) 6) := by
    simp only [c87_clauses]
    rw [ReadsBack]
    refine ⟨?_, ⟨_, _, _, _, _, rfl⟩, c87_boost (Or.inr (Or.inr rfl))⟩
    simp only [ReadsBackAll, ReadsBack]
    refine ⟨⟨Or.inl rfl, by decide, ⟨⟨'a', _, rfl, Or.inl (by decide)⟩, by decide, by decide, by decide⟩, by decide, rfl, b2⟩, by simp,
      ⟨c87_fieldB, ⟨⟨'a', _, rfl, Or.inl (by decide)⟩, by decide, by decide, by decide⟩, rfl, ?_, b2⟩, by simp [endsTilde],
      ⟨Or.inl rfl, same _ 'a' (by decide), ⟨c87_plain (by decide +kernel) (by decide +kernel) (by decide +kernel) (by decide +kernel), by decide +kernel⟩, b2⟩, by simp [endsTilde],
      ⟨Or.inl rfl, ?_, ⟨by decide, by decide⟩, b2⟩, by simp,
      ⟨Or.inl rfl, same _ 'a' (by decide), rfl, b2⟩, by simp [endsTilde], trivial⟩
    · rintro ⟨p, e, -⟩
      have := congrArg List.getLast? e
      simp at this
    · intro w hw
      rcases hw with hw | hw <;> cases hw
      · exact ⟨plainA, rfl⟩
      · exact ⟨plainC, rfl⟩
  unfold c87_sample
  simp only [c87_clauses] at inner ⊢
  rw [ReadsBack]
  refine ⟨?_, ⟨_, _, _, _, _, rfl⟩, b2⟩
  rw [ReadsBackAll, ReadsBackAll, ReadsBackAll, ReadsBackAll, ReadsBackAll]
  refine ⟨?_, by simp, ?_, by simp [endsTilde], inner, by simp, ?_, by simp [endsTilde], trivial⟩
  · rw [ReadsBack]
    exact ⟨c87_fieldB, same _ 'x' (by decide), c87_boost (Or.inr (Or.inl rfl))⟩
  · rw [ReadsBack]
    refine ⟨Or.inl rfl, by decide, by decide, by decide, ?_, by decide, by decide, b2⟩
    intro p hp
    simp only [List.mem_cons, List.not_mem_nil, or_false] at hp
    rcases hp with rfl | rfl
    · refine ⟨by simp, ?_⟩
      intro w hw
      simp only [List.mem_cons, List.not_mem_nil, or_false] at hw
      subst hw
      exact ⟨same _ 'x' (by decide), by decide⟩
    · refine ⟨by simp, ?_⟩
      intro w hw
      simp only [List.mem_cons, List.not_mem_nil, or_false] at hw
      rcases hw with rfl | rfl
      · exact ⟨same _ 'y' (by decide), by decide⟩
      · exact ⟨same _ 'z' (by decide), by decide⟩
  · rw [ReadsBack]
    exact ⟨rfl, b2⟩

/-- It is read back. -/
example : ∃ r, qpParse c76_cfg 2000 [] (c87_text c87_sample) = .ok ([], .query r) ∧ askedFor c87_read r = c87_sample :=
  c87_round_partial c76_cfg (fun _ => rfl) rfl ['t'] rfl sortPlaces_sorts c87_sample c87_sample_reads (by decide +kernel) 2000 (by decide +kernel)

/-- And can be shown. -/
theorem c87_sample_shown : Showable c86_nums c87_sample := by
  simp only [c87_sample, c87_clauses, Showable, ShowableAll]
  decide +kernel

example : ∃ s, QText.toS c86_nums sortPlaces (some ['t']) c87_sample = .ok s ∧
    ∀ fuel, 20 * s.length + 20 ≤ fuel → ∃ r, qpParse c76_cfg fuel [] s = .ok ([], .query r) ∧ askedFor c87_read r = c87_sample :=
  c87_to_s_partial c76_cfg (fun _ => rfl) rfl ['t'] rfl c86_nums_ok sortPlaces_sorts c87_sample c87_sample_shown c87_sample_reads (by decide +kernel)

#print axioms c87_round_partial
#print axioms c87_to_s_partial
#print axioms c87_text_tells_partial
#print axioms c87_one_clause
#print axioms c87_fuzzy_then_word
#print axioms c87_not_escaped
#print axioms c87_demands
#print axioms c87_same_place
#print axioms c87_shifted_phrase
end Ferret.Props
