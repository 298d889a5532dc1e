import Verif.Spec.QueryRound
import Verif.Lemmas.QWrite

/-! Texts of queries without blanks behind every token: how they are read, and that cleaning keeps them. -/

namespace Ferret.QRound

open Ferret.Spec
open Ferret.QP

/-! ### Reading -/

/-- What may follow a text: nothing, or a character that ends a word. -/
def Stops (rest : List Char) : Prop := rest = [] ∨ ∃ c r, rest = c :: r ∧ c ∈ qEnds

theorem Stops.stop {rest : List Char} (h : Stops rest) : QStop rest := by
  rcases h with h | h
  · exact Or.inl h
  · exact Or.inr (Or.inl h)

/-- A text is read as these tokens; none of them is empty. -/
def Reads (keys : Bool) (qlen : Nat) (x : List Char) (ts : List QTok) : Prop :=
  ts.length ≤ x.length ∧ (x.length ≤ qlen → ∀ rest lts, Stops rest → Lexed keys qlen rest lts →
    ∃ lts', Lexed keys qlen (x ++ rest) (lts' ++ lts) ∧ lts'.map LexTok.spec = ts)

variable {keys : Bool} {qlen : Nat}

theorem yylex_blank (s : List Char) : yylex keys qlen (' ' :: s) = yylex keys qlen s := by
  unfold yylex skipBlanks
  rw [List.dropWhile_cons_of_pos (by decide)]

theorem lexed_blank {s : List Char} {lts : List LexTok} (h : Lexed keys qlen s lts) : Lexed keys qlen (' ' :: s) lts := by
  cases h with
  | done h1 h2 => exact .done (by rw [yylex_blank]; exact h1) h2
  | more h1 h2 h3 => exact .more (by rw [yylex_blank]; exact h1) h2 h3

theorem reads_nil : Reads keys qlen [] [] := ⟨Nat.le_refl _, fun _ _ _ _ h => ⟨[], h, rfl⟩⟩

theorem reads_blank {x : List Char} {ts : List QTok} (h : Reads keys qlen x ts) : Reads keys qlen (' ' :: x) ts := by
  refine ⟨by have := h.1; simp; omega, ?_⟩
  intro hl rest lts hs hr
  obtain ⟨lts', h1, h2⟩ := h.2 (by simp at hl; omega) rest lts hs hr
  exact ⟨lts', lexed_blank h1, h2⟩

/-- One token and what follows. -/
theorem reads_tok {a x : List Char} {t : LexTok} {q : QTok} {ts : List QTok} (h : Reads keys qlen x ts)
    (ht : a.length ≤ qlen → ∀ rest, Stops rest → yylex keys qlen (a ++ (x ++ rest)) = .ok (t, x ++ rest)) (hq : t.spec = q) (he : t.tok ≠ .eof) (ha : a ≠ [] := by simp) :
    Reads keys qlen (a ++ x) (q :: ts) := by
  have hal : 0 < a.length := List.length_pos_iff.2 ha
  refine ⟨by have := h.1; rw [List.length_append, List.length_cons]; omega, ?_⟩
  intro hl rest lts hs hr
  rw [List.length_append] at hl
  obtain ⟨lts', h1, h2⟩ := h.2 (by omega) rest lts hs hr
  refine ⟨t :: lts', ?_, by rw [List.map_cons, h2, hq]⟩
  rw [List.append_assoc]
  exact .more (ht (by omega) rest hs) he h1

theorem reads_mark {c : Char} (hc : c ∈ qMarks) (hb : c ≠ '|') {x : List Char} {ts : List QTok} (h : Reads keys qlen x ts) :
    Reads keys qlen (c :: x) (.sym c :: ts) :=
  reads_tok (a := [c]) h (fun _ rest _ => lex_sym (b := []) (Or.inl rfl) hc _ (fun e => absurd e hb)) (t := plainTok (.ch c)) rfl (by simp [plainTok])

theorem reads_bar {c : Char} {x : List Char} {ts : List QTok} (hc : c ≠ '|') (h : Reads keys qlen (c :: x) ts) :
    Reads keys qlen ('|' :: c :: x) (.sym '|' :: ts) :=
  reads_tok (a := ['|']) h (fun _ rest _ => lex_sym (b := []) (Or.inl rfl) (by decide) _ (by intro _ e; simp at e; exact hc e)) (t := plainTok (.ch '|')) rfl (by simp [plainTok])

theorem reads_sign (o : Occ) (s : QSign) (ho : s.occ = o) {x : List Char} {ts : List QTok} (h : Reads keys qlen x ts) :
    Reads keys qlen (signText o ++ x) (s.written ++ ts) := by
  subst ho
  cases s with
  | none => exact h
  | req => exact reads_tok (a := ['+']) h (fun _ rest _ => rfl) (t := plainTok .req) rfl (by simp [plainTok])
  | not => exact reads_tok (a := ['-']) h (fun _ rest _ => rfl) (t := plainTok .not) rfl (by simp [plainTok])

theorem reads_append {a b : List Char} {ts us : List QTok} (ha : Reads keys qlen a ts) (hb : Reads keys qlen b us) (hs : Stops b) :
    Reads keys qlen (a ++ b) (ts ++ us) := by
  refine ⟨by have := ha.1; have := hb.1; rw [List.length_append, List.length_append]; omega, ?_⟩
  intro hl rest lts hr h
  rw [List.length_append] at hl
  obtain ⟨l2, h1, h2⟩ := hb.2 (by omega) rest lts hr h
  have hs' : Stops (b ++ rest) := by
    rcases hs with rfl | ⟨c, r, rfl, hc⟩
    · exact hr
    · exact Or.inr ⟨c, r ++ rest, rfl, hc⟩
  obtain ⟨l1, h3, h4⟩ := ha.2 (by omega) (b ++ rest) (l2 ++ lts) hs' h1
  exact ⟨l1 ++ l2, by rw [List.append_assoc, List.append_assoc]; exact h3, by rw [List.map_append, h4, h2]⟩

/-! ### Words -/

theorem plain_written (w : QWord) : writtenAs (w.map QPiece.plain) = w := by
  induction w with
  | nil => rfl
  | cons c w ih =>
    have : writtenAs ((c :: w).map QPiece.plain) = c :: writtenAs (w.map QPiece.plain) := rfl
    rw [this, ih]

theorem lex_plain {w : QWord} (hw : readsPlain keys w) (hl : w.length ≤ qlen) {rest : List Char} (hr : QStop rest) :
    ∃ t, yylex keys qlen (w ++ rest) = .ok (t, rest) ∧ t.spec = .word w ∧ t.tok ≠ .eof := by
  obtain ⟨⟨c, cs, rfl, hc⟩, hok, hk, -⟩ := hw
  have hm := pieces_mean QPiece.plain (fun _ => rfl) (c :: cs)
  have hwr := plain_written (c :: cs)
  have hall : ∀ q ∈ QPiece.plain c :: cs.map QPiece.plain, ∃ d ∈ c :: cs, q = .plain d := by
    intro q hq
    obtain ⟨d, hd, rfl⟩ := List.mem_map.1 (show q ∈ (c :: cs).map QPiece.plain from hq)
    exact ⟨d, hd, rfl⟩
  have := yylex_pieces (keys := keys) (qlen := qlen) (ps := cs.map QPiece.plain) (p := .plain c) (blanks := []) (rest := rest) (by simp) hr
    (by
      intro q hq
      obtain ⟨d, hd, rfl⟩ := hall q hq
      exact ⟨(hok d hd).1, (hok d hd).2.1, (hok d hd).2.2.1⟩)
    (Or.inl (not_escaped hc).2.2.2)
    (by
      intro h
      rw [show meantBy (QPiece.plain c :: cs.map QPiece.plain) = c :: cs from hm]
      have := hk h
      simp only [qReserved, List.mem_cons, List.not_mem_nil, or_false, not_or] at this
      simp [keyword, this.1, this.2.1, this.2.2.1, this.2.2.2])
    (by rw [show writtenAs (QPiece.plain c :: cs.map QPiece.plain) = c :: cs from hwr]; exact hl)
    (Or.inl (by
      intro hq
      obtain ⟨d, -, hd⟩ := hall _ hq
      cases hd))
  rw [show writtenAs (QPiece.plain c :: cs.map QPiece.plain) = c :: cs from hwr, List.nil_append] at this
  refine ⟨_, this, ?_, ?_⟩
  · have hany : (QPiece.plain c :: cs.map QPiece.plain).any QPiece.wild = false := by
      rw [List.any_eq_false]
      intro q hq
      obtain ⟨d, hd, rfl⟩ := hall q hq
      simp [QPiece.wild, (hok d hd).2.2.2.1, (hok d hd).2.2.2.2]
    simp only [hany, LexTok.spec]
    rw [show meantBy (QPiece.plain c :: cs.map QPiece.plain) = c :: cs from hm]
    rfl
  · simp only []
    split <;> simp

theorem reads_word {w : QWord} (hw : readsPlain keys w) : Reads keys qlen w [.word w] := by
  refine ⟨by obtain ⟨c, r, e, -⟩ := hw.1; rw [e]; simp, ?_⟩
  intro hl rest lts hs hr
  obtain ⟨t, h1, h2, h3⟩ := lex_plain (keys := keys) (qlen := qlen) hw hl hs.stop
  exact ⟨[t], .more h1 h3 hr, by simp [h2]⟩

/-- A field and what follows. -/
theorem reads_field {f : QWord} (hf : readsPlain keys f) {x : List Char} {ts : List QTok} (hx : ∃ c r, x = c :: r ∧ c ≠ ':')
    (h : Reads keys qlen x ts) : Reads keys qlen (f ++ [':'] ++ x) (.word f :: .sym ':' :: ts) := by
  have h1 := reads_mark (c := ':') (by decide) (by decide) h
  rw [List.append_assoc, List.singleton_append]
  refine ⟨by obtain ⟨c, r, e, -⟩ := hf.1; have := h1.1; rw [e]; simp at this ⊢; omega, ?_⟩
  intro hl rest lts hs hr
  rw [List.length_append] at hl
  obtain ⟨lts', h2, h3⟩ := h1.2 (by omega) rest lts hs hr
  obtain ⟨c, r, rfl, hc⟩ := hx
  obtain ⟨t, e1, e2, e3⟩ := lex_plain (keys := keys) (qlen := qlen) hf (by omega) (rest := ':' :: c :: r ++ rest)
    (Or.inr (Or.inr ⟨c :: (r ++ rest), rfl, by simpa using hc⟩))
  exact ⟨t :: lts', by rw [List.append_assoc]; exact .more e1 e3 h2, by rw [List.map_cons, h3, e2]⟩

theorem lex_pattern {w : QWord} (hw : readsPattern w) (hl : w.length ≤ qlen) {rest : List Char} (hr : Stops rest) :
    ∃ t, yylex keys qlen (w ++ rest) = .ok (t, rest) ∧ t.spec = .wild w ∧ t.tok ≠ .eof := by
  obtain ⟨⟨c, cs, rfl, hc⟩, hok, hwild, -⟩ := hw
  have hm := pieces_mean QPiece.plain (fun _ => rfl) (c :: cs)
  have hwr := plain_written (c :: cs)
  have hall : ∀ q ∈ QPiece.plain c :: cs.map QPiece.plain, ∃ d ∈ c :: cs, q = .plain d := by
    intro q hq
    obtain ⟨d, hd, rfl⟩ := List.mem_map.1 (show q ∈ (c :: cs).map QPiece.plain from hq)
    exact ⟨d, hd, rfl⟩
  have hok' : ∀ q ∈ QPiece.plain c :: cs.map QPiece.plain, q.Ok := by
    intro q hq
    obtain ⟨d, hd, rfl⟩ := hall q hq
    exact hok d hd
  have hkey : keys = true → keyword (meantBy (QPiece.plain c :: cs.map QPiece.plain)) = none := by
    intro _
    rw [show meantBy (QPiece.plain c :: cs.map QPiece.plain) = c :: cs from hm]
    have h1 : c :: cs ≠ ['A', 'N', 'D'] := by intro e; rw [e] at hwild; revert hwild; decide
    have h2 : c :: cs ≠ ['N', 'O', 'T'] := by intro e; rw [e] at hwild; revert hwild; decide
    have h3 : c :: cs ≠ ['R', 'E', 'Q'] := by intro e; rw [e] at hwild; revert hwild; decide
    have h4 : c :: cs ≠ ['O', 'R'] := by intro e; rw [e] at hwild; revert hwild; decide
    simp only [keyword, h1, h2, h3, h4, if_false]
  have hcol : QPiece.colons ∉ QPiece.plain c :: cs.map QPiece.plain := by
    intro hq
    obtain ⟨d, -, hd⟩ := hall _ hq
    cases hd
  have hlen : (writtenAs (QPiece.plain c :: cs.map QPiece.plain)).length ≤ qlen := by
    rw [show writtenAs (QPiece.plain c :: cs.map QPiece.plain) = c :: cs from hwr]; exact hl
  have hg := getWord_pieces (keys := keys) (qlen := qlen) hr.stop hok' hkey hlen (Or.inl hcol)
  have hlex : yylex keys qlen (c :: cs ++ rest) =
      .ok (⟨if (QPiece.plain c :: cs.map QPiece.plain).any QPiece.wild then .wild else .word, true, meantBy (QPiece.plain c :: cs.map QPiece.plain),
        decide (maxWordSize ≤ (meantBy (QPiece.plain c :: cs.map QPiece.plain)).length)⟩, rest) := by
    by_cases hs : c = '*'
    · subst hs
      rw [show writtenAs (QPiece.plain '*' :: cs.map QPiece.plain) = '*' :: cs from hwr] at hg
      rw [← hg]
      have hhead : (cs ++ rest).head? ≠ some ':' := by
        cases cs with
        | nil =>
          rcases hr with rfl | ⟨d, r, rfl, hd⟩
          · simp
          · intro e
            simp at e
            subst e
            exact absurd hd (by decide)
        | cons d cs =>
          intro e
          simp at e
          subst e
          exact (hok ':' (by simp)).2.2 rfl
      show lexHere keys qlen ('*' :: (cs ++ rest)) = _
      simp only [lexHere]
      rw [if_pos (by decide), if_neg (by decide), if_neg (by decide), if_pos trivial, if_neg hhead]
      rfl
    · have := yylex_pieces (keys := keys) (qlen := qlen) (ps := cs.map QPiece.plain) (p := .plain c) (blanks := []) (rest := rest) (by simp) hr.stop hok'
        (by
          rcases hc with hc | hc | hc
          · exact Or.inl (not_escaped hc).2.2.2
          · exact absurd hc hs
          · exact Or.inr hc) hkey hlen (Or.inl hcol)
      rw [show writtenAs (QPiece.plain c :: cs.map QPiece.plain) = c :: cs from hwr, List.nil_append] at this
      exact this
  refine ⟨_, hlex, ?_, ?_⟩
  · have hany : (QPiece.plain c :: cs.map QPiece.plain).any QPiece.wild = true := by
      rw [List.any_eq_true]
      rcases hwild with h | h
      · exact ⟨.plain '*', List.mem_map_of_mem (f := QPiece.plain) h, by decide⟩
      · exact ⟨.plain '?', List.mem_map_of_mem (f := QPiece.plain) h, by decide⟩
    simp only [hany, LexTok.spec]
    rw [show meantBy (QPiece.plain c :: cs.map QPiece.plain) = c :: cs from hm]
    rfl
  · simp only []
    split <;> simp

theorem reads_pattern {w : QWord} (hw : readsPattern w) : Reads keys qlen w [.wild w] := by
  refine ⟨by obtain ⟨c, r, e, -⟩ := hw.1; rw [e]; simp, ?_⟩
  intro hl rest lts hs hr
  obtain ⟨t, h1, h2, h3⟩ := lex_pattern (keys := keys) (qlen := qlen) hw hl hs
  exact ⟨[t], .more h1 h3 hr, by simp [h2]⟩

/-! ### Cleaning -/

theorem clear_chars {w : List Char} (h : ∀ c ∈ w, c ∉ ['\\', '"', '(', ')']) : Clear w := by
  induction w with
  | nil => exact Clear.nil
  | cons c w ih => exact Clear.append (a := [c]) (clear_one (h c (by simp))) (ih fun d hd => h d (List.mem_cons_of_mem _ hd))

theorem clear_plain {w : QWord} (h : ∀ c ∈ w, c ∉ qEnds ∧ c ≠ '\\') : Clear w := by
  refine clear_chars (fun c hc hm => ?_)
  have hsub : ∀ x ∈ ['\\', '"', '(', ')'], x = '\\' ∨ x ∈ qEnds := by decide
  rcases hsub c hm with e | e
  · exact (h c hc).2 e
  · exact (h c hc).1 e

theorem clear_cons {c : Char} (h : c ∉ ['\\', '"', '(', ')']) {x : List Char} (hx : Clear x) : Clear (c :: x) :=
  Clear.append (a := [c]) (clear_one h) hx

/-- A phrase is kept. -/
theorem clear_quotes {x : List Char} (h : Inner x) : Clear ('"' :: x ++ ['"']) := by
  intro out pb br hp
  obtain ⟨pb2, h2, h2', e2⟩ := h ('"' :: out) (some '"') br (by decide) (by decide)
  refine ⟨some '"', by decide, ?_⟩
  rw [show ('"' :: x ++ ['"'] : List Char) = ['"'] ++ (x ++ ['"']) from rfl, pureLoop_append, pureLoop_append]
  have e1 : pureLoop ⟨out, pb, br, false⟩ ['"'] = ⟨'"' :: out, some '"', br, true⟩ := by
    simp only [pureLoop, List.foldl_cons, List.foldl_nil]
    unfold pureStep; simp only []; rw [if_neg hp]; rfl
  rw [e1, e2]
  simp only [pureLoop, List.foldl_cons, List.foldl_nil]
  rw [show pureStep ⟨x.reverse ++ '"' :: out, pb2, br, true⟩ '"' = ⟨'"' :: (x.reverse ++ '"' :: out), some '"', br, false⟩ by
    unfold pureStep; simp only []; rw [if_neg h2]; rfl]
  simp

/-- Parentheses are kept. -/
theorem clear_paren {x : List Char} (h : Clear x) : Clear ('(' :: x ++ [')']) := by
  intro out pb br hp
  obtain ⟨pb2, h2, e2⟩ := h ('(' :: out) (some '(') (br + 1) (by decide)
  refine ⟨some ')', by decide, ?_⟩
  rw [show ('(' :: x ++ [')'] : List Char) = ['('] ++ (x ++ [')']) from rfl, pureLoop_append, pureLoop_append]
  have e1 : pureLoop ⟨out, pb, br, false⟩ ['('] = ⟨'(' :: out, some '(', br + 1, false⟩ := by
    simp only [pureLoop, List.foldl_cons, List.foldl_nil]
    unfold pureStep; simp only []; rw [if_neg hp]; rfl
  rw [e1, e2]
  simp only [pureLoop, List.foldl_cons, List.foldl_nil]
  rw [show pureStep ⟨x.reverse ++ '(' :: out, pb2, br + 1, false⟩ ')' = ⟨')' :: (x.reverse ++ '(' :: out), some ')', br, false⟩ by
    unfold pureStep; simp only []; rw [if_neg h2]; rfl]
  simp

theorem inner_nil : Inner [] := fun _ pb _ h h' => ⟨pb, h, h', rfl⟩

theorem inner_chars {w : List Char} (h : ∀ c ∈ w, c = '|' ∨ (c ∉ qSpecial ∧ c ≠ '\\')) : Inner w := by
  induction w with
  | nil => exact inner_nil
  | cons c w ih => exact Inner.append (a := [c]) (inner_one (h c (by simp))) (ih fun d hd => h d (List.mem_cons_of_mem _ hd))

/-! ### What parsing needs of the tokens -/

/-- A token and what stands right behind it. -/
def Local (cfg : Cfg) : List QTok → Prop
  | [] => True
  | t :: ts => (∀ w, t = .word w ∨ t = .wild w → w.length ≤ 253) ∧ (t = .sym '>' → ts.head? ≠ some (.sym '|')) ∧
    (t = .sym '"' → ∀ w r, ts = .sym '~' :: .word w :: r → qNumber w) ∧
    (t = .sym '[' ∨ t = .sym '{' → ∀ x y r, ts = .word x :: .word y :: r → cfg.inOrder x y = true ∧ cfg.inOrder (x.map cfg.lower) (y.map cfg.lower) = true) ∧
    Local cfg ts

theorem Local.suffix {cfg : Cfg} {b : List QTok} : ∀ a : List QTok, Local cfg (a ++ b) → Local cfg b
  | [], h => h
  | _ :: a, h => Local.suffix a h.2.2.2.2

theorem Local.good {cfg : Cfg} {ts : List QTok} (h : Local cfg ts) : Good cfg ts := by
  refine ⟨⟨?_, ?_, ?_⟩, ?_⟩
  · intro w hw
    have key : ∀ t ∈ ts, ∀ w, t = .word w ∨ t = .wild w → w.length ≤ 253 := by
      intro t ht
      obtain ⟨a, b, e⟩ := List.append_of_mem ht
      subst e
      exact (Local.suffix a h).1
    rcases hw with hw | hw
    · exact key _ hw w (Or.inl rfl)
    · exact key _ hw w (Or.inr rfl)
  · intro a b e
    subst e
    exact (Local.suffix a h).2.1 rfl rfl
  · intro a w b e
    subst e
    exact (Local.suffix a h).2.2.1 rfl w b rfl
  · intro a o x y b e ho
    subst e
    exact (Local.suffix a h).2.2.2.1 (by rcases ho with rfl | rfl <;> simp) x y b rfl

/-- What may stand behind complete queries. -/
def Starts (ts : List QTok) : Prop := ts.head? ≠ some (.sym '|') ∧ ts.head? ≠ some (.sym '~')

/-- Tokens in front of which nothing has to be known. -/
def Fine (cfg : Cfg) (ts : List QTok) : Prop := ∀ rest, Starts rest → Local cfg rest → Local cfg (ts ++ rest)

theorem Fine.append {cfg : Cfg} {a b : List QTok} (ha : Fine cfg a) (hb : Fine cfg b) (hs : b = [] ∨ Starts b) : Fine cfg (a ++ b) := by
  intro rest h1 h2
  rw [List.append_assoc]
  refine ha _ ?_ (hb rest h1 h2)
  cases b with
  | nil => exact h1
  | cons t b =>
    rcases hs with hs | hs
    · cases hs
    · exact ⟨by simpa using hs.1, by simpa using hs.2⟩

theorem Fine.cons {cfg : Cfg} {t : QTok} {ts : List QTok} (h : Fine cfg ts) (h1 : ∀ w, t = .word w ∨ t = .wild w → w.length ≤ 253)
    (h2 : t ≠ .sym '>') (h3 : t ≠ .sym '"') (h4 : t ≠ .sym '[' ∧ t ≠ .sym '{') : Fine cfg (t :: ts) := by
  intro rest hs hr
  exact ⟨h1, fun e => absurd e h2, fun e => absurd e h3, fun e => by rcases e with e | e; exact absurd e h4.1; exact absurd e h4.2, h rest hs hr⟩

theorem fine_nil {cfg : Cfg} : Fine cfg [] := fun _ _ h => h

theorem fine_word {cfg : Cfg} {w : QWord} (h : w.length ≤ 253) : Fine cfg [.word w] :=
  fine_nil.cons (by intro v hv; rcases hv with hv | hv <;> cases hv; exact h) (by simp) (by simp) (by simp)

end Ferret.QRound
