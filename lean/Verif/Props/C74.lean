import Verif.Lemmas.QClean

/-!
C74: cleaning the text of a query before parsing it never writes out of bounds, keeps the words, and leaves
quotes and parentheses matched and phrases escaped — but for backslashes in some places.
-/

namespace Ferret.Props
open Ferret Ferret.QP Ferret.Spec

/-- Cleaning any text stays within what it allocates and at most doubles the text. -/
theorem c74_in_bounds (s : List Char) : ∃ t, cleanStr s = .ok t ∧ t.length ≤ 2 * s.length :=
  ⟨_, cleanStr_ok s, finish_length s⟩

/-- Cleaning keeps every character but backslashes, in order, and adds only backslashes, parentheses and
quotes. -/
theorem c74_words_kept (s t : List Char) (h : cleanStr s = .ok t) :
    qWords t = qWords s ∧ List.Sublist (s.filter (fun c => c != '\\')) t := by
  rw [cleanStr_ok] at h
  cases h
  exact ⟨finish_words s, finish_keeps s⟩

/-- The cleaned text has its quotes and parentheses matched. Missing: texts that end in a backslash that
escapes nothing, and texts with an escaped backslash inside quotes (`c74_last_slash`, `c74_slash_in_phrase`). -/
theorem c74_balanced_partial (s t : List Char) (h : cleanStr s = .ok t) (hw : QWhole s) (hs : QNoSlashes s) :
    QBalanced t := by
  rw [cleanStr_ok] at h
  cases h
  exact finish_balanced hs hw

/-- Inside the phrases of the cleaned text all special characters but the marks of a phrase are escaped.
Missing: texts with backslashes inside quotes (`c74_escape_undone`). -/
theorem c74_phrases_partial (s t : List Char) (h : cleanStr s = .ok t) (he : QNoEscapes s) : QQuiet t := by
  rw [cleanStr_ok] at h
  cases h
  exact finish_quiet he

/-- A text that needs no cleaning is left as it is. -/
theorem c74_unchanged (s : List Char) (hb : QBalanced s) (hq : QQuiet s) (he : QNoEscapes s) :
    cleanStr s = .ok s := by
  rw [cleanStr_ok, finish_same hb hq he]

/-- What cleaning makes of a text, to be read. -/
def cleaned (s : String) : String :=
  match cleanStr s.toList with
  | .ok t => String.ofList t
  | _ => "undefined"

/-- A backslash at the end escapes the parenthesis that was to close an open one. -/
theorem c74_last_slash : cleanStr "(abc\\".toList = .ok "(abc\\)".toList ∧ ¬ QBalanced "(abc\\)".toList := by
  refine ⟨by decide +kernel, ?_⟩
  rintro ⟨e, h⟩
  have : qRead (false, false) 0 "(abc\\)".toList = some ((false, false), 1) := by decide +kernel
  rw [this] at h
  simp at h

/-- A phrase that ends in an escaped backslash loses one of the two, and the other escapes the quote. -/
theorem c74_slash_in_phrase :
    QBalanced "\"a\\\\\"".toList ∧ cleanStr "\"a\\\\\"".toList = .ok "\"a\\\"".toList ∧
    ¬ QBalanced "\"a\\\"".toList := by
  refine ⟨⟨false, by decide +kernel⟩, by decide +kernel, ?_⟩
  rintro ⟨e, h⟩
  have : qRead (false, false) 0 "\"a\\\"".toList = some ((false, true), 0) := by decide +kernel
  rw [this] at h
  simp at h

/-- A phrase in which the user escaped a parenthesis loses the escape, although it needed no cleaning; and
cleaning twice undoes what cleaning once did. -/
theorem c74_escape_undone :
    QBalanced "\"a\\(b\"".toList ∧ QQuiet "\"a\\(b\"".toList ∧
    cleanStr "\"a\\(b\"".toList = .ok "\"a(b\"".toList ∧ ¬ QQuiet "\"a(b\"".toList ∧
    cleanStr "\"a(b\"".toList = .ok "\"a\\(b\"".toList := by
  refine ⟨⟨false, by decide +kernel⟩, ?_, by decide +kernel, ?_, by decide +kernel⟩
  · have h := finish_quiet (s := "\"a(b\"".toList) (by
      intro a b e
      have : '\\' ∈ "\"a(b\"".toList := by rw [e]; simp
      exact absurd this (by decide +kernel))
    have e := cleanStr_ok "\"a(b\"".toList
    rw [show cleanStr "\"a(b\"".toList = .ok "\"a\\(b\"".toList by decide +kernel] at e
    exact Res.ok.inj e ▸ h
  · intro h
    have := h ['"', 'a'] '(' ['b', '"'] (by decide +kernel) (by decide +kernel) (by decide +kernel)
    revert this
    decide

/-- The two characters `<` `>` escaped to be searched for become the mark of a gap in the phrase. -/
theorem c74_gap_not_escaped : cleanStr "\"\\<>\"".toList = .ok "\"<>\"".toList := by decide +kernel

/-- A text without backslashes meets the hypotheses about them. -/
theorem noBackslash {s : List Char} (h : '\\' ∉ s) : QNoEscapes s ∧ QNoSlashes s := by
  refine ⟨fun a b e => ?_, fun a b e => ?_⟩
  · exact absurd (show '\\' ∈ s by rw [e]; simp) h
  · exact absurd (show '\\' ∈ s by rw [e]; simp) h

example : QNoEscapes "title:(a OR \"b (c <> d|e\" x) y) (z".toList :=
  (noBackslash (by decide +kernel)).1

example : cleaned "title:(a OR \"b (c <> d|e\" x) y) (z" = "(title:(a OR \"b \\(c <> d|e\" x) y) (z)" := by
  decide +kernel

example : QWhole "\\(a (b \"c".toList ∧ QNoSlashes "\\(a (b \"c".toList ∧
    cleaned "\\(a (b \"c" = "\\(a (b \"c\")" := by
  refine ⟨show (qMode _).1 = false by decide +kernel, ?_, by decide +kernel⟩
  intro a b e
  have h := congrArg (fun l => l.count '\\') e
  simp only [List.count_append, List.count_cons] at h
  rw [show List.count '\\' "\\(a (b \"c".toList = 1 by decide +kernel] at h
  simp at h
  omega

/-- A text that needs no cleaning. -/
theorem cleanSample : QBalanced "(a OR \"b <> c|d\") \\)".toList ∧ QQuiet "(a OR \"b <> c|d\") \\)".toList ∧
    QNoEscapes "(a OR \"b <> c|d\") \\)".toList := by
  have he : QNoEscapes "(a OR \"b <> c|d\") \\)".toList := by
    intro a b e hm
    have h1 : a = "(a OR \"b <> c|d\") ".toList := by
      have h2 : ∀ n, n < 20 → ("(a OR \"b <> c|d\") \\)".toList)[n]? = some '\\' → n = 18 := by decide +kernel
      have hl : a.length = 18 := by
        have h3 : a.length + (b.length + 1) = 20 := by
          have := congrArg List.length e
          simp only [List.length_append, List.length_cons] at this
          rw [show "(a OR \"b <> c|d\") \\)".toList.length = 20 by decide +kernel] at this
          omega
        exact h2 a.length (by omega) (by rw [e]; simp)
      have h4 := congrArg (List.take 18) e
      rw [← hl, List.take_left] at h4
      rw [← h4, hl]; decide +kernel
    rw [h1] at hm
    revert hm
    decide +kernel
  refine ⟨⟨false, by decide +kernel⟩, ?_, he⟩
  have h := finish_quiet he
  have e := cleanStr_ok "(a OR \"b <> c|d\") \\)".toList
  rw [show cleanStr "(a OR \"b <> c|d\") \\)".toList = .ok "(a OR \"b <> c|d\") \\)".toList by decide +kernel] at e
  exact Res.ok.inj e ▸ h

example : cleanStr "(a OR \"b <> c|d\") \\)".toList = .ok "(a OR \"b <> c|d\") \\)".toList :=
  c74_unchanged _ cleanSample.1 cleanSample.2.1 cleanSample.2.2

#print axioms c74_in_bounds
#print axioms c74_words_kept
#print axioms c74_balanced_partial
#print axioms c74_phrases_partial
#print axioms c74_unchanged
#print axioms c74_last_slash
#print axioms c74_slash_in_phrase
#print axioms c74_escape_undone
#print axioms c74_gap_not_escaped
end Ferret.Props
