import Verif.Lemmas.QLex

/-!
C75: the lexer of the query parser reads every text without leaving its buffers, but for long words with pairs
of colons; words mean what is written; and which words cannot be written.
-/

namespace Ferret.Props
open Ferret Ferret.QP Ferret.Spec

/-- Reading a token from any text stays within the buffers and makes progress: but for the end of the text,
which gives the token of the end, the rest is shorter. The word read is no longer than what was read of the
text. Missing: texts of 255 characters and more with two colons side by side (`c75_colons_overflow`). -/
theorem c75_token_partial (keys : Bool) (qlen : Nat) (s : List Char) (hl : s.length ≤ qlen)
    (hc : NoColons s ∨ s.length < 255) :
    ∃ t used rest, yylex keys qlen s = .ok (t, rest) ∧ s = used ++ rest ∧ t.text.length ≤ used.length ∧
      (t.tok = .eof → rest = []) ∧ (t.tok ≠ .eof → rest.length < s.length) := by
  obtain ⟨t, rest, e1, e2⟩ := yylex_ok (keys := keys) hl hc
  obtain ⟨used, h1, h2⟩ := e2.suffix
  exact ⟨t, used, rest, e1, h1, h2, e2.ended, e2.shorter⟩

/-- The keywords of the query language. -/
def qKeywords : List (List Char) := [['A', 'N', 'D'], ['O', 'R'], ['N', 'O', 'T'], ['R', 'E', 'Q']]

theorem keyword_none {w : List Char} (h : w ∉ qKeywords) : keyword w = none := by
  simp only [qKeywords, List.mem_cons, List.not_mem_nil, or_false, not_or] at h
  simp [keyword, h.1, h.2.1, h.2.2.1, h.2.2.2]

/-- A word, written with any of its characters escaped, behind blanks and before something that ends a word,
is read as exactly that word, and as a wild card exactly if it has a wild card that is not escaped. -/
theorem c75_word (keys : Bool) (qlen : Nat) (blanks : List Char) (p : QPiece) (ps : List QPiece)
    (rest : List Char) (hb : ∀ c ∈ blanks, c = ' ' ∨ c = '\t') (hr : QStop rest)
    (hok : ∀ q ∈ p :: ps, q.Ok) (hp : p.StartsWord)
    (hk : keys = true → (p :: ps).flatMap QPiece.meant ∉ qKeywords)
    (hl : (blanks ++ (p :: ps).flatMap QPiece.written ++ rest).length ≤ qlen)
    (hc : QPiece.colons ∉ p :: ps ∨ ((p :: ps).flatMap QPiece.meant).length < 255) :
    ∃ t, yylex keys qlen (blanks ++ (p :: ps).flatMap QPiece.written ++ rest) = .ok (t, rest) ∧
      t.text = (p :: ps).flatMap QPiece.meant ∧
      t.tok = if (p :: ps).any QPiece.wild then .wild else .word := by
  have hl' : (writtenAs (p :: ps)).length ≤ qlen := by
    rw [List.length_append, List.length_append] at hl
    exact Nat.le_trans (Nat.le_trans (Nat.le_add_left _ _) (Nat.le_add_right _ _)) hl
  exact ⟨_, yylex_pieces hb hr hok hp (fun h => keyword_none (hk h)) hl' hc, rfl, rfl⟩

/-- Every character of a word behind a backslash. -/
def escapeAll (w : List Char) : List Char := w.flatMap (fun c => ['\\', c])

/-- Any word but the keywords can be searched for: with all its characters escaped it is read as itself. -/
theorem c75_escaped (keys : Bool) (qlen : Nat) (w rest : List Char) (hw : w ≠ [])
    (hk : keys = true → w ∉ qKeywords) (hr : QStop rest) (hl : (escapeAll w ++ rest).length ≤ qlen) :
    ∃ t, yylex keys qlen (escapeAll w ++ rest) = .ok (t, rest) ∧ t.text = w ∧ t.tok = .word := by
  match w, hw with
  | c :: w, _ =>
    have e1 : ∀ l : List Char, (l.map QPiece.esc).flatMap QPiece.written = escapeAll l := by
      intro l; simp [escapeAll, List.flatMap_map, QPiece.written]
    have e2 : ∀ l : List Char, (l.map QPiece.esc).flatMap QPiece.meant = l := by
      intro l; simp [List.flatMap_map, QPiece.meant]
    have e3 : ∀ l : List Char, (l.map QPiece.esc).any QPiece.wild = false := by
      intro l; simp [QPiece.wild]
    obtain ⟨t, h1, h2, h3⟩ := c75_word keys qlen [] (.esc c) (w.map QPiece.esc) rest (by simp) hr
      (by
        intro q hq
        have : ∃ d, q = QPiece.esc d := by
          rcases List.mem_cons.1 hq with rfl | hq
          · exact ⟨c, rfl⟩
          · obtain ⟨d, -, rfl⟩ := List.mem_map.1 hq; exact ⟨d, rfl⟩
        obtain ⟨d, rfl⟩ := this
        trivial) trivial (by
        intro h; have := e2 (c :: w); rw [List.map_cons] at this; rw [this]; exact hk h)
      (by have := e1 (c :: w); rw [List.map_cons] at this; rw [this]; exact hl)
      (Or.inl (by simp))
    have h4 := e1 (c :: w)
    have h5 := e2 (c :: w)
    have h6 := e3 (c :: w)
    rw [List.map_cons] at h4 h5 h6
    rw [h4] at h1
    rw [h5] at h2
    rw [h6] at h3
    exact ⟨t, h1, h2, h3⟩

/-- A keyword cannot be searched for: it stays a keyword with every character escaped. -/
theorem c75_keywords_not_escaped :
    yylex true 6 (escapeAll ['A', 'N', 'D']) = .ok (⟨.and, true, [], false⟩, []) ∧
    yylex true 4 (escapeAll ['O', 'R']) = .ok (⟨.or, true, [], false⟩, []) := by decide +kernel

/-- In a word with a wild card, an escaped star is a wild card as well. -/
theorem c75_escaped_star_wild :
    yylex true 5 "\\*ab*".toList = .ok (⟨.wild, true, "*ab*".toList, false⟩, []) ∧
    yylex true 4 "*ab*".toList = .ok (⟨.wild, true, "*ab*".toList, false⟩, []) := by decide +kernel

/-- A word of 254 characters followed by two colons runs out of its buffer. -/
theorem c75_colons_overflow :
    yylex true 256 (List.replicate 254 'a' ++ [':', ':']) = .ub := by decide +kernel

example : NoColons "title|body:(\\(a AND b*) \"x <> y\"~2".toList := by
  intro a b e
  have h : ∀ n, n < 36 → ¬ (("title|body:(\\(a AND b*) \"x <> y\"~2".toList)[n]? = some ':' ∧
      ("title|body:(\\(a AND b*) \"x <> y\"~2".toList)[n + 1]? = some ':') := by decide +kernel
  have hl := congrArg List.length e
  rw [show "title|body:(\\(a AND b*) \"x <> y\"~2".toList.length = 34 by decide +kernel] at hl
  simp only [List.length_append, List.length_cons] at hl
  exact h a.length (by omega) (by rw [e]; simp)

example : (∀ q ∈ [QPiece.plain 'a', .colons, .esc '(', .plain '-', .plain '*'], q.Ok) ∧
    (QPiece.plain 'a').StartsWord ∧ QStop ":x".toList ∧
    [QPiece.plain 'a', .colons, .esc '(', .plain '-', .plain '*'].flatMap QPiece.written = "a::\\(-*".toList ∧
    [QPiece.plain 'a', .colons, .esc '(', .plain '-', .plain '*'].flatMap QPiece.meant = "a::(-*".toList := by
  refine ⟨?_, Or.inl (by decide), Or.inr (Or.inr ⟨['x'], by decide, by decide⟩), by decide, by decide⟩
  intro q hq
  simp only [List.mem_cons, List.not_mem_nil, or_false] at hq
  rcases hq with rfl | rfl | rfl | rfl | rfl
  · exact ⟨by decide, by decide, by decide⟩
  · trivial
  · trivial
  · exact ⟨by decide, by decide, by decide⟩
  · exact ⟨by decide, by decide, by decide⟩

example : escapeAll "a b:*".toList = "\\a\\ \\b\\:\\*".toList ∧ "a b:*".toList ∉ qKeywords ∧
    QStop " AND c".toList :=
  ⟨by decide, by decide, Or.inr (Or.inl ⟨' ', "AND c".toList, by decide, by decide⟩)⟩

/-- The keywords and what they say. -/
def qKeywordToks : List (List Char × Tok) := [(['A', 'N', 'D'], .and), (['O', 'R'], .or), (['N', 'O', 'T'], .not), (['R', 'E', 'Q'], .req)]

/-- The signs that say the same. -/
def qSignToks : List (List Char × Tok) := [(['-'], .not), (['!'], .not), (['+'], .req), (['&', '&'], .and), (['|', '|'], .or)]

theorem skipBlanks_to {blanks l : List Char} {x : Char} (hb : ∀ c ∈ blanks, c = ' ' ∨ c = '\t') (hx : x ∉ [' ', '\t']) : skipBlanks (blanks ++ x :: l) = x :: l := by
  unfold skipBlanks
  rw [List.dropWhile_append_of_pos (by intro c hc; rcases hb c hc with rfl | rfl <;> decide), List.dropWhile_cons_of_neg]
  simpa using hx

theorem getWord_keyword {qlen : Nat} {w rest : List Char} {t : Tok} (hr : QStop rest) (hok : ∀ q ∈ w.map QPiece.plain, q.Ok) (hk : keyword w = some t) (hl : w.length ≤ qlen) :
    getWord true qlen (w ++ rest) = .ok (⟨t, true, [], false⟩, rest) := by
  have hm : (w.map QPiece.plain).flatMap QPiece.meant = w := by simp [List.flatMap_map, QPiece.meant]
  have hw : (w.map QPiece.plain).flatMap QPiece.written = w := by simp [List.flatMap_map, QPiece.written]
  obtain ⟨w', e1, e2, e3, -⟩ := wordLoop_pieces (cap := qlen + 1) hr (w.map QPiece.plain) ⟨[], false, false⟩ hok
    (by unfold Wd.Fits; decide) (by show 0 + _ < _; rw [writtenAs, hw]; omega) (Or.inl (by simp))
  rw [writtenAs, hw] at e1
  rw [meantBy, hm, List.append_nil] at e3
  have hroom := Fits.room (cap := qlen + 1) e2 (by rw [e3, List.length_reverse]; omega)
  unfold Wd.Room at hroom
  unfold getWord
  simp only [e1, Res.ok_bind]
  rw [if_pos hroom, e3, List.reverse_reverse, if_pos trivial, hk]
  rfl

/-- Each keyword, behind blanks and before something that ends a word, is read as what it says. -/
theorem c75_keywords_read (qlen : Nat) (blanks w rest : List Char) (t : Tok) (hw : (w, t) ∈ qKeywordToks) (hb : ∀ c ∈ blanks, c = ' ' ∨ c = '\t') (hr : QStop rest)
    (hl : (blanks ++ w ++ rest).length ≤ qlen) : ∃ x, yylex true qlen (blanks ++ w ++ rest) = .ok (x, rest) ∧ x.tok = t := by
  rw [List.length_append, List.length_append] at hl
  rw [List.append_assoc]
  unfold yylex
  simp only [qKeywordToks, List.mem_cons, List.not_mem_nil, or_false, Prod.mk.injEq] at hw
  rcases hw with ⟨rfl, rfl⟩ | ⟨rfl, rfl⟩ | ⟨rfl, rfl⟩ | ⟨rfl, rfl⟩
  all_goals
    rw [List.cons_append, skipBlanks_to hb (by decide)]
    simp only [lexHere]
    rw [if_neg (by decide), ← List.cons_append, getWord_keyword hr (by simp [QPiece.Ok]; decide) (by rfl) (by omega)]
    exact ⟨_, rfl, rfl⟩

/-- Each sign, behind blanks and whatever follows, is read as what it says. -/
theorem c75_signs_read (keys : Bool) (qlen : Nat) (blanks w rest : List Char) (t : Tok) (hw : (w, t) ∈ qSignToks) (hb : ∀ c ∈ blanks, c = ' ' ∨ c = '\t') :
    ∃ x, yylex keys qlen (blanks ++ w ++ rest) = .ok (x, rest) ∧ x.tok = t := by
  rw [List.append_assoc]
  unfold yylex
  simp only [qSignToks, List.mem_cons, List.not_mem_nil, or_false, Prod.mk.injEq] at hw
  rcases hw with ⟨rfl, rfl⟩ | ⟨rfl, rfl⟩ | ⟨rfl, rfl⟩ | ⟨rfl, rfl⟩ | ⟨rfl, rfl⟩
  all_goals
    rw [List.cons_append, skipBlanks_to hb (by decide)]
    exact ⟨_, rfl, rfl⟩

example : ∃ x, yylex true 12 " \tREQ word".toList = .ok (x, " word".toList) ∧ x.tok = .req :=
  c75_keywords_read 12 " \t".toList ['R', 'E', 'Q'] " word".toList .req (by decide) (by decide) (Or.inr (Or.inl ⟨' ', "word".toList, by decide, by decide⟩)) (by decide)

#print axioms c75_token_partial
#print axioms c75_word
#print axioms c75_escaped
#print axioms c75_keywords_not_escaped
#print axioms c75_escaped_star_wild
#print axioms c75_colons_overflow
#print axioms c75_keywords_read
#print axioms c75_signs_read
end Ferret.Props
