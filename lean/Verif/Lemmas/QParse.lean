import Verif.Spec.QTree
import Verif.Lemmas.QLex

/-!
The query parser: the invariant of its loop. The stack is a path of the automaton; each entry stands for a
tree of the query language written with the tokens read for it, and its value is what the tree means.
-/

namespace Ferret.QP
open Ferret.Spec

/-! ### Tokens -/

/-- The text gives these tokens, up to its end. -/
inductive Lexed (keys : Bool) (qlen : Nat) : List Char → List LexTok → Prop
  | done {s t r} : yylex keys qlen s = .ok (t, r) → t.tok = .eof → Lexed keys qlen s []
  | more {s t r ts} : yylex keys qlen s = .ok (t, r) → t.tok ≠ .eof → Lexed keys qlen r ts →
      Lexed keys qlen s (t :: ts)

/-- The calls of get_word made for a token. -/
def callN (t : LexTok) : Nat := if t.call then 1 else 0

/-- The calls of get_word made for tokens. -/
def calls (ts : List LexTok) : Nat := (ts.map callN).sum

@[simp] theorem calls_nil : calls [] = 0 := rfl
@[simp] theorem calls_append (a b : List LexTok) : calls (a ++ b) = calls a + calls b := by simp [calls]
@[simp] theorem calls_cons (t : LexTok) (b : List LexTok) : calls (t :: b) = callN t + calls b := by simp [calls]

theorem callN_le (t : LexTok) : callN t ≤ 1 := by unfold callN; split <;> omega

/-- The value of a token read with the `n`th call of get_word. -/
def tokVal (t : LexTok) (n : Nat) : Val :=
  if t.tok = .word ∨ t.tok = .wild then Val.word ⟨t.text, t.dyn, n⟩ else .none

/-- A token of the query language. -/
def LexTok.spec (t : LexTok) : QTok :=
  match t.tok with
  | .word => .word t.text
  | .wild => .wild t.text
  | .and => .and
  | .or => .or
  | .req => .req
  | .not => .not
  | .ch c => .sym c
  | .eof => .sym ' '

/-- What is known of any token. -/
structure Shaped (t : LexTok) : Prop where
  word : t.tok = .word ∨ t.tok = .wild → t.call = true
  sym : ∀ c, t.tok = .ch c → t.call = false
  dyn : t.dyn = true → maxWordSize ≤ t.text.length
  eof : t.tok = .eof → t.call = false

theorem wordLoop_dyn {cap : Nat} : ∀ (n : Nat) (s : List Char) (w w' : Wd) (rest : List Char), s.length ≤ n →
    (w.dyn = true → maxWordSize ≤ w.buf.length) → wordLoop cap w s = .ok (w', rest) →
    (w'.dyn = true → maxWordSize ≤ w'.buf.length) := by
  have put_dyn : ∀ {w w' : Wd} {c : Char}, (w.dyn = true → maxWordSize ≤ w.buf.length) →
      w.put cap c = .ok w' → (w'.dyn = true → maxWordSize ≤ w'.buf.length) := by
    intro w w' c h e
    unfold Wd.put at e
    by_cases hc : w.buf.length < (if w.dyn then cap else maxWordSize)
    · rw [if_pos hc] at e
      cases e; intro hd; have := h hd; simp; omega
    · rw [if_neg hc] at e
      cases e
  have grow_dyn : ∀ {w : Wd}, (w.dyn = true → maxWordSize ≤ w.buf.length) →
      (w.grow.dyn = true → maxWordSize ≤ w.grow.buf.length) := by
    intro w h
    unfold Wd.grow
    split
    · rename_i hc; simp at hc; intro _; simp [hc.2]
    · exact h
  intro n
  induction n with
  | zero =>
    intro s w w' rest hn h e
    match s with
    | [] => rw [wordLoop] at e; cases e; exact h
  | succ n ih =>
    intro s w w' rest hn h e
    match s with
    | [] => rw [wordLoop] at e; cases e; exact h
    | c :: s =>
      simp only [List.length_cons] at hn
      rw [wordLoop.eq_def] at e
      simp only [] at e
      split at e
      · cases e; exact h
      split at e
      · match s with
        | [] =>
          obtain ⟨w1, e1, e2⟩ := Res.bind_eq_ok.1 e
          cases e2
          exact grow_dyn (put_dyn h e1)
        | d :: s' =>
          obtain ⟨w1, e1, e2⟩ := Res.bind_eq_ok.1 e
          exact ih s' _ _ _ (by simp at hn; omega) (grow_dyn (put_dyn h e1)) e2
      split at e
      · match s with
        | [] => cases e; exact h
        | d :: s' =>
          simp only [] at e
          split at e
          · obtain ⟨w1, e1, e2⟩ := Res.bind_eq_ok.1 e
            obtain ⟨w2, e3, e4⟩ := Res.bind_eq_ok.1 e2
            exact ih s' _ _ _ (by simp at hn; omega) (grow_dyn (put_dyn (put_dyn h e1) e3)) e4
          · cases e; exact h
      · obtain ⟨w1, e1, e2⟩ := Res.bind_eq_ok.1 e
        refine ih s _ _ _ (by omega) (grow_dyn ?_) e2
        have := put_dyn h e1
        split
        · exact this
        · exact this

theorem getWord_shaped {keys : Bool} {qlen : Nat} {s : List Char} {t : LexTok} {r : List Char}
    (h : getWord keys qlen s = .ok (t, r)) : Shaped t := by
  unfold getWord at h
  obtain ⟨⟨w, rest⟩, e1, e2⟩ := Res.bind_eq_ok.1 h
  have hd := wordLoop_dyn s.length s _ w rest (Nat.le_refl _) (by simp) e1
  simp only [] at e2
  by_cases hc : w.buf.length < (if w.dyn then qlen + 1 else maxWordSize)
  · rw [if_pos hc] at e2
    split at e2
    · rename_i k hk
      cases e2
      refine ⟨fun _ => rfl, ?_, (fun h => by cases h), ?_⟩
      · intro c hc
        simp only [] at hc
        subst hc
        split at hk
        · unfold keyword at hk
          repeat (first | cases hk | (split at hk))
        · cases hk
      · intro hc
        simp only [] at hc
        subst hc
        split at hk
        · unfold keyword at hk
          repeat (first | cases hk | (split at hk))
        · cases hk
    · cases e2
      refine ⟨fun _ => rfl, ?_, ?_, ?_⟩
      · intro c hc; simp only [] at hc; split at hc <;> cases hc
      · intro h; simpa using hd h
      · intro hc; simp only [] at hc; split at hc <;> cases hc
  · rw [if_neg hc] at e2
    cases e2

theorem plainTok_shaped (k : Tok) (h1 : k ≠ .word) (h2 : k ≠ .wild) : Shaped (plainTok k) :=
  ⟨fun h => h.elim (fun h => absurd h h1) (fun h => absurd h h2), fun _ _ => rfl, (fun h => by cases h), fun _ => rfl⟩

theorem yylex_shaped {keys : Bool} {qlen : Nat} {s : List Char} {t : LexTok} {r : List Char}
    (h : yylex keys qlen s = .ok (t, r)) : Shaped t := by
  unfold yylex at h
  generalize skipBlanks s = s' at h
  match s' with
  | [] => cases h; exact plainTok_shaped _ nofun nofun
  | c :: s' =>
    simp only [lexHere] at h
    split at h
    · repeat (first
        | exact getWord_shaped h
        | (cases h; exact plainTok_shaped _ nofun nofun)
        | (split at h))
    · exact getWord_shaped h

theorem Lexed.shaped {keys : Bool} {qlen : Nat} {s : List Char} {ts : List LexTok} (h : Lexed keys qlen s ts) :
    ∀ t ∈ ts, Shaped t ∧ t.tok ≠ .eof := by
  induction h with
  | done _ _ => simp
  | more h1 h2 _ ih =>
    intro t ht
    rcases List.mem_cons.1 ht with rfl | ht
    · exact ⟨yylex_shaped h1, h2⟩
    · exact ih t ht

/-- The token a number of the tables stands for. -/
def untranslate : Nat → Tok
  | 0 => .eof
  | 3 => .word
  | 4 => .wild
  | 6 => .or
  | 7 => .and
  | 8 => .not
  | 9 => .req
  | 10 => .ch ':'
  | 12 => .ch '^'
  | 13 => .ch '('
  | 14 => .ch ')'
  | 15 => .ch '~'
  | 16 => .ch '*'
  | 17 => .ch '|'
  | 18 => .ch '"'
  | 19 => .ch '<'
  | 20 => .ch '>'
  | 21 => .ch '['
  | 22 => .ch ']'
  | 23 => .ch '}'
  | 24 => .ch '{'
  | _ => .ch '='

theorem untranslate_eq {t : Tok} {k : Nat} (h : translate t = k) (hk : k ≠ 2) : t = untranslate k := by
  subst h
  cases t <;> try rfl
  rename_i c
  simp only [translate] at hk ⊢
  by_cases h : c = ':'
  · subst h; rfl
  rw [if_neg h] at hk ⊢; clear h
  by_cases h : c = '^'
  · subst h; rfl
  rw [if_neg h] at hk ⊢; clear h
  by_cases h : c = '('
  · subst h; rfl
  rw [if_neg h] at hk ⊢; clear h
  by_cases h : c = ')'
  · subst h; rfl
  rw [if_neg h] at hk ⊢; clear h
  by_cases h : c = '~'
  · subst h; rfl
  rw [if_neg h] at hk ⊢; clear h
  by_cases h : c = '*'
  · subst h; rfl
  rw [if_neg h] at hk ⊢; clear h
  by_cases h : c = '|'
  · subst h; rfl
  rw [if_neg h] at hk ⊢; clear h
  by_cases h : c = '"'
  · subst h; rfl
  rw [if_neg h] at hk ⊢; clear h
  by_cases h : c = '<'
  · subst h; rfl
  rw [if_neg h] at hk ⊢; clear h
  by_cases h : c = '>'
  · subst h; rfl
  rw [if_neg h] at hk ⊢; clear h
  by_cases h : c = '['
  · subst h; rfl
  rw [if_neg h] at hk ⊢; clear h
  by_cases h : c = ']'
  · subst h; rfl
  rw [if_neg h] at hk ⊢; clear h
  by_cases h : c = '}'
  · subst h; rfl
  rw [if_neg h] at hk ⊢; clear h
  by_cases h : c = '{'
  · subst h; rfl
  rw [if_neg h] at hk ⊢; clear h
  by_cases h : c = '='
  · subst h; rfl
  rw [if_neg h] at hk ⊢; clear h
  exact absurd rfl hk

end Ferret.QP
