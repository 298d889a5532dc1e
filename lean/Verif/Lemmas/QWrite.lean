import Verif.Spec.QWrite
import Verif.Lemmas.QWhole
import Verif.Lemmas.QClean

/-!
What is typed for a tree is read as the words and marks of the tree, and cleaning leaves it as it is.
-/

namespace Ferret.QP
open Ferret.Spec

/-! ### Reading what was typed -/

def pieceOf (c : Char) : QPiece := if c ∈ qEscaped then .esc c else .plain c

def wpieceOf (c : Char) : QPiece := if c = '*' ∨ c = '?' then .plain c else pieceOf c

theorem typedWord_eq (w : QWord) : typedWord w = writtenAs (w.map pieceOf) := by
  simp only [typedWord, writtenAs, List.flatMap_map]
  congr 1
  funext c
  unfold pieceOf
  split <;> rfl

theorem typedWild_eq (w : QWord) : typedWild w = writtenAs (w.map wpieceOf) := by
  simp only [typedWild, writtenAs, List.flatMap_map]
  congr 1
  funext c
  unfold wpieceOf pieceOf
  split
  · rfl
  · split <;> rfl

theorem pieces_mean (f : Char → QPiece) (hf : ∀ c, (f c).meant = [c]) (w : QWord) : meantBy (w.map f) = w := by
  simp only [meantBy, List.flatMap_map, hf]
  induction w with
  | nil => rfl
  | cons c w ih => simpa using ih

theorem pieceOf_meant (c : Char) : (pieceOf c).meant = [c] := by unfold pieceOf; split <;> rfl

theorem wpieceOf_meant (c : Char) : (wpieceOf c).meant = [c] := by
  unfold wpieceOf
  split
  · rfl
  · exact pieceOf_meant c

theorem not_escaped {c : Char} (h : c ∉ qEscaped) : c ∉ qEnds ∧ c ≠ '\\' ∧ c ≠ ':' ∧ c ∉ qSpecial := by
  have hsub : ∀ x ∈ qEnds, x ∈ qEscaped := by decide
  refine ⟨fun hm => h (hsub c hm), ?_, ?_, fun hm => h (List.mem_append_left _ hm)⟩
  · rintro rfl; exact h (by decide)
  · rintro rfl; exact h (by decide)

theorem pieceOf_ok (c : Char) : (pieceOf c).Ok ∧ (pieceOf c).StartsWord ∧ pieceOf c ≠ .colons ∧
    (pieceOf c).wild = false := by
  unfold pieceOf
  by_cases h : c ∈ qEscaped
  · rw [if_pos h]; exact ⟨trivial, trivial, nofun, rfl⟩
  · rw [if_neg h]
    obtain ⟨h1, h2, h3, h4⟩ := not_escaped h
    refine ⟨⟨h1, h2, h3⟩, Or.inl h4, nofun, ?_⟩
    have h5 : c ≠ '*' := by rintro rfl; exact h4 (by decide)
    have h6 : c ≠ '?' := by rintro rfl; exact h4 (by decide)
    simp [QPiece.wild, h5, h6]

theorem wpieceOf_ok (c : Char) : (wpieceOf c).Ok ∧ (c ≠ '*' → (wpieceOf c).StartsWord) ∧ wpieceOf c ≠ .colons ∧
    ((wpieceOf c).wild = true ↔ (c = '*' ∨ c = '?')) := by
  unfold wpieceOf
  by_cases h : c = '*' ∨ c = '?'
  · rw [if_pos h]
    refine ⟨?_, ?_, nofun, ?_⟩
    · rcases h with rfl | rfl <;> exact ⟨by decide, by decide, by decide⟩
    · rintro hc
      rcases h with rfl | rfl
      · exact absurd rfl hc
      · exact Or.inr rfl
    · rcases h with rfl | rfl <;> simp [QPiece.wild]
  · rw [if_neg h]
    obtain ⟨h1, h2, h3, h4⟩ := pieceOf_ok c
    exact ⟨h1, fun _ => h2, h3, by simp [h4, h]⟩

theorem stop_blank (r : List Char) : QStop (' ' :: r) := Or.inr (Or.inl ⟨' ', r, rfl, by decide⟩)

/-- A blank, or none. -/
def Gap (b : List Char) : Prop := b = [] ∨ b = [' ']

theorem Gap.blanks {b : List Char} (h : Gap b) : ∀ c ∈ b, c = ' ' ∨ c = '\t' := by
  rcases h with rfl | rfl <;> simp

theorem lex_word {keys : Bool} {qlen : Nat} {b : List Char} (hb : Gap b) {w : QWord} (hw : w ≠ [])
    (hk : keys = true → w ∉ qReserved) (rest : List Char) (hl : (typedWord w).length ≤ qlen) :
    ∃ t, yylex keys qlen (b ++ (typedWord w ++ ' ' :: rest)) = .ok (t, ' ' :: rest) ∧ t.spec = .word w ∧
      t.tok ≠ .eof := by
  match w, hw with
  | c :: w, _ =>
    have hm := pieces_mean pieceOf pieceOf_meant (c :: w)
    rw [typedWord_eq] at hl ⊢
    have hkey : keys = true → keyword (meantBy ((c :: w).map pieceOf)) = none := by
      intro h
      rw [hm]
      have := hk h
      simp only [qReserved, List.mem_cons, List.not_mem_nil, or_false, not_or] at this
      simp [keyword, this.1, this.2.1, this.2.2.1, this.2.2.2]
    have := yylex_pieces (keys := keys) (qlen := qlen) (ps := w.map pieceOf) (p := pieceOf c) (blanks := b)
      (rest := ' ' :: rest) hb.blanks (stop_blank rest) (by
        intro q hq
        obtain ⟨d, -, rfl⟩ := List.mem_map.1 (show q ∈ (c :: w).map pieceOf from hq)
        exact (pieceOf_ok d).1) (pieceOf_ok c).2.1 hkey hl
      (Or.inl (by
        intro hq
        obtain ⟨d, -, hd⟩ := List.mem_map.1 (show QPiece.colons ∈ (c :: w).map pieceOf from hq)
        exact (pieceOf_ok d).2.2.1 hd))
    rw [List.append_assoc] at this
    refine ⟨_, this, ?_, ?_⟩
    · have hany : (pieceOf c :: w.map pieceOf).any QPiece.wild = false := by
        rw [List.any_eq_false]
        intro q hq
        obtain ⟨d, -, rfl⟩ := List.mem_map.1 (show q ∈ (c :: w).map pieceOf from hq)
        rw [(pieceOf_ok d).2.2.2]; simp
      simp only [hany, LexTok.spec]
      rw [show meantBy (pieceOf c :: w.map pieceOf) = c :: w from hm]
      rfl
    · simp only []
      split <;> simp

theorem lex_wild {keys : Bool} {qlen : Nat} {b : List Char} (hb : Gap b) {w : QWord} (hw : '*' ∈ w ∨ '?' ∈ w)
    (rest : List Char) (hl : (typedWild w).length ≤ qlen) :
    ∃ t, yylex keys qlen (b ++ (typedWild w ++ ' ' :: rest)) = .ok (t, ' ' :: rest) ∧ t.spec = .wild w ∧
      t.tok ≠ .eof := by
  match w, hw with
  | c :: w, hw =>
    have hm := pieces_mean wpieceOf wpieceOf_meant (c :: w)
    rw [typedWild_eq] at hl ⊢
    have hkey : keys = true → keyword (meantBy ((c :: w).map wpieceOf)) = none := by
      intro _
      rw [hm]
      have h1 : c :: w ≠ ['A', 'N', 'D'] := by intro e; rw [e] at hw; revert hw; decide
      have h2 : c :: w ≠ ['N', 'O', 'T'] := by intro e; rw [e] at hw; revert hw; decide
      have h3 : c :: w ≠ ['R', 'E', 'Q'] := by intro e; rw [e] at hw; revert hw; decide
      have h4 : c :: w ≠ ['O', 'R'] := by intro e; rw [e] at hw; revert hw; decide
      simp only [keyword, h1, h2, h3, h4, if_false]
    have hok : ∀ q ∈ wpieceOf c :: w.map wpieceOf, q.Ok := by
      intro q hq
      obtain ⟨d, -, rfl⟩ := List.mem_map.1 (show q ∈ (c :: w).map wpieceOf from hq)
      exact (wpieceOf_ok d).1
    have hcol : QPiece.colons ∉ wpieceOf c :: w.map wpieceOf := by
      intro hq
      obtain ⟨d, -, hd⟩ := List.mem_map.1 (show QPiece.colons ∈ (c :: w).map wpieceOf from hq)
      exact (wpieceOf_ok d).2.2.1 hd
    have hlex : yylex keys qlen (b ++ (writtenAs ((c :: w).map wpieceOf) ++ ' ' :: rest)) =
        .ok (⟨if ((c :: w).map wpieceOf).any QPiece.wild then .wild else .word, true, meantBy ((c :: w).map wpieceOf),
          decide (maxWordSize ≤ (meantBy ((c :: w).map wpieceOf)).length)⟩, ' ' :: rest) := by
      by_cases hc : c = '*'
      · have hg := getWord_pieces (keys := keys) (qlen := qlen) (stop_blank rest) hok hkey hl (Or.inl hcol)
        have hskip : skipBlanks (b ++ (writtenAs ((c :: w).map wpieceOf) ++ ' ' :: rest)) =
            writtenAs ((c :: w).map wpieceOf) ++ ' ' :: rest := by
          subst hc
          rcases hb with rfl | rfl <;> rfl
        unfold yylex
        rw [hskip]
        rw [List.map_cons, ← hg]
        subst hc
        have hhead : (writtenAs (w.map wpieceOf) ++ ' ' :: rest).head? ≠ some ':' := by
          cases w with
          | nil => simp
          | cons d w =>
            have : (wpieceOf d).written.head? ≠ some ':' ∧ (wpieceOf d).written ≠ [] := by
              unfold wpieceOf pieceOf
              split
              · rename_i h; rcases h with rfl | rfl <;> simp [QPiece.written]
              · split
                · simp [QPiece.written]
                · rename_i h
                  have := (not_escaped h).2.2.1
                  simp [QPiece.written, this]
            rw [List.map_cons, writtenAs, List.flatMap_cons, List.append_assoc]
            match hx : (wpieceOf d).written, this with
            | x :: xs, ⟨h1, _⟩ => exact h1
        show lexHere keys qlen ('*' :: (writtenAs (w.map wpieceOf) ++ ' ' :: rest)) = _
        simp only [lexHere]
        rw [if_pos (by decide), if_neg (by decide), if_neg (by decide), if_pos trivial, if_neg hhead]
        rfl
      · have := yylex_pieces (keys := keys) (qlen := qlen) (ps := w.map wpieceOf) (p := wpieceOf c) (blanks := b)
          (rest := ' ' :: rest) hb.blanks (stop_blank rest) hok ((wpieceOf_ok c).2.1 hc) hkey hl (Or.inl hcol)
        rw [List.append_assoc] at this
        exact this
    refine ⟨_, hlex, ?_, ?_⟩
    · have hany : ((c :: w).map wpieceOf).any QPiece.wild = true := by
        rw [List.any_eq_true]
        rcases hw with hw | hw
        · exact ⟨_, List.mem_map_of_mem hw, (wpieceOf_ok _).2.2.2.2 (Or.inl rfl)⟩
        · exact ⟨_, List.mem_map_of_mem hw, (wpieceOf_ok _).2.2.2.2 (Or.inr rfl)⟩
      simp only [hany, LexTok.spec, hm]
      rfl
    · simp only []
      split <;> simp

/-- The marks of the query language. -/
def qMarks : List Char := ['(', ')', '[', ']', '{', '}', '"', '~', '^', '|', '<', '>', '=', ':']

theorem lex_sym {keys : Bool} {qlen : Nat} {b : List Char} (hb : Gap b) {c : Char} (hc : c ∈ qMarks) (rest : List Char)
    (hbar : c = '|' → rest.head? ≠ some '|') :
    yylex keys qlen (b ++ c :: rest) = .ok (plainTok (.ch c), rest) := by
  have hskip : skipBlanks (b ++ c :: rest) = c :: rest := by
    simp only [qMarks, List.mem_cons, List.not_mem_nil, or_false] at hc
    rcases hb with rfl | rfl <;>
      rcases hc with rfl | rfl | rfl | rfl | rfl | rfl | rfl | rfl | rfl | rfl | rfl | rfl | rfl | rfl <;> rfl
  unfold yylex
  rw [hskip]
  simp only [lexHere]
  simp only [qMarks, List.mem_cons, List.not_mem_nil, or_false] at hc
  rcases hc with rfl | rfl | rfl | rfl | rfl | rfl | rfl | rfl | rfl | rfl | rfl | rfl | rfl | rfl
  case inr.inr.inr.inr.inr.inr.inr.inr.inr.inl =>
    rw [if_pos (by decide), if_neg (by decide), if_neg (by decide), if_neg (by decide), if_neg (by decide),
      if_neg (by decide), if_pos rfl, if_neg (hbar rfl)]
  all_goals
    rw [if_pos (by decide), if_neg (by decide), if_neg (by decide), if_neg (by decide), if_neg (by decide),
      if_neg (by decide), if_neg (by decide)]

/-- Marks are marks, and a star stands before a colon. -/
def Marked : List QTok → Prop
  | [] => True
  | .sym c :: ts => (c ∈ qMarks ∨ (c = '*' ∧ ∃ r, ts = .sym ':' :: r)) ∧ Marked ts
  | _ :: ts => Marked ts

theorem Marked.append {a b : List QTok} (ha : Marked a) (hb : Marked b) : Marked (a ++ b) := by
  induction a with
  | nil => exact hb
  | cons t a ih =>
    cases t with
    | sym c =>
      obtain ⟨h1, h2⟩ := ha
      refine ⟨?_, ih h2⟩
      rcases h1 with h1 | ⟨h1, r, rfl⟩
      · exact Or.inl h1
      · exact Or.inr ⟨h1, r ++ b, rfl⟩
    | _ => exact ih ha

/-- What was typed is read as it was meant. -/
theorem typed_lexed {keys : Bool} {qlen : Nat} : ∀ (ts : List QTok) (b : List Char), Gap b → Marked ts →
    QTypable keys ts → (typed ts).length ≤ qlen →
    ∃ lts, Lexed keys qlen (b ++ typed ts) lts ∧ lts.map LexTok.spec = ts := by
  intro ts
  induction ts with
  | nil =>
    intro b hb _ _ _
    refine ⟨[], .done (t := plainTok .eof) (r := []) ?_ rfl, rfl⟩
    rcases hb with rfl | rfl <;> rfl
  | cons t ts ih =>
    intro b hb hm hk hl
    have hk' : QTypable keys ts := ⟨fun w h => hk.1 w (List.mem_cons_of_mem _ h), fun w h => hk.2 w (List.mem_cons_of_mem _ h)⟩
    rw [typed, List.flatMap_cons, List.length_append] at hl
    have hl' : (typed ts).length ≤ qlen := by unfold typed; omega
    have go : ∀ {b' : List Char} {lt : LexTok}, Gap b' → Marked ts →
        yylex keys qlen (b ++ typed (t :: ts)) = .ok (lt, b' ++ typed ts) → lt.spec = t → lt.tok ≠ .eof →
        ∃ lts, Lexed keys qlen (b ++ typed (t :: ts)) lts ∧ lts.map LexTok.spec = t :: ts := by
      intro b' lt hb' hm' h1 h2 h3
      obtain ⟨lts, e1, e2⟩ := ih b' hb' hm' hk' hl'
      exact ⟨lt :: lts, .more h1 h3 e1, by rw [List.map_cons, h2, e2]⟩
    have hsplit : typed (t :: ts) = t.typed ++ typed ts := by rw [typed, List.flatMap_cons]; rfl
    cases t with
    | word w =>
      have hw := hk.1 w List.mem_cons_self
      simp only [QTok.typed, List.length_append] at hl
      obtain ⟨lt, e1, e2, e3⟩ := lex_word (keys := keys) (qlen := qlen) hb hw.1 hw.2 (typed ts) (by omega)
      refine go (b' := [' ']) (Or.inr rfl) hm ?_ e2 e3
      rw [hsplit]
      simpa [QTok.typed] using e1
    | wild w =>
      have hw := hk.2 w List.mem_cons_self
      simp only [QTok.typed, List.length_append] at hl
      obtain ⟨lt, e1, e2, e3⟩ := lex_wild (keys := keys) (qlen := qlen) hb hw (typed ts) (by omega)
      refine go (b' := [' ']) (Or.inr rfl) hm ?_ e2 e3
      rw [hsplit]
      simpa [QTok.typed] using e1
    | and =>
      refine go (b' := [' ']) (lt := plainTok .and) (Or.inr rfl) hm ?_ rfl (by simp [plainTok])
      rw [hsplit]
      rcases hb with rfl | rfl <;> rfl
    | or =>
      refine go (b' := [' ']) (lt := plainTok .or) (Or.inr rfl) hm ?_ rfl (by simp [plainTok])
      rw [hsplit]
      rcases hb with rfl | rfl <;> rfl
    | req =>
      refine go (b' := [' ']) (lt := plainTok .req) (Or.inr rfl) hm ?_ rfl (by simp [plainTok])
      rw [hsplit]
      rcases hb with rfl | rfl <;> rfl
    | not =>
      refine go (b' := [' ']) (lt := plainTok .not) (Or.inr rfl) hm ?_ rfl (by simp [plainTok])
      rw [hsplit]
      rcases hb with rfl | rfl <;> rfl
    | sym c =>
      obtain ⟨h1, h2⟩ := hm
      rcases h1 with h1 | ⟨rfl, r, rfl⟩
      · by_cases hlt : c = '<'
        · subst hlt
          refine go (b' := []) (Or.inl rfl) h2 ?_ (lt := plainTok (.ch '<')) rfl (by simp [plainTok])
          rw [hsplit]
          exact lex_sym hb h1 _ (fun h => absurd h (by decide))
        · have hstar : c ≠ '*' := by rintro rfl; exact absurd h1 (by decide)
          refine go (b' := [' ']) (Or.inr rfl) h2 ?_ (lt := plainTok (.ch c)) rfl (by simp [plainTok])
          rw [hsplit]
          simp only [QTok.typed, hlt, hstar, or_self, if_false]
          exact lex_sym hb h1 _ (by simp)
      · refine go (b' := []) (Or.inl rfl) h2 ?_ (lt := plainTok (.ch '*')) rfl (by simp [plainTok])
        rcases hb with rfl | rfl <;> rfl

/-! ### Trees -/

theorem marked_spots : ∀ ss : List QSpot, Marked (ss.flatMap QSpot.written)
  | [] => trivial
  | .next w :: ss => marked_spots ss
  | .gap :: ss => ⟨Or.inl (by decide), ⟨Or.inl (by decide), marked_spots ss⟩⟩
  | .alt w :: ss => ⟨Or.inl (by decide), marked_spots ss⟩

theorem marked_fields : ∀ fs : List QWord, Marked (fs.flatMap (fun g => [QTok.sym '|', .word g]))
  | [] => trivial
  | _ :: fs => ⟨Or.inl (by decide), marked_fields fs⟩

theorem marked_slop (s : Option QWord) : Marked (writtenSlop s) := by
  cases s with
  | none => trivial
  | some w => exact ⟨Or.inl (by decide), trivial⟩

theorem marked_leaf (l : QLeaf) : Marked l.written := by
  match l with
  | .word w => trivial
  | .fuzzy w none => exact ⟨Or.inl (by decide), trivial⟩
  | .fuzzy w (some s) => exact ⟨Or.inl (by decide), trivial⟩
  | .wild w => trivial
  | .phrase f ss sl =>
    refine Marked.append (Marked.append (Marked.append (Marked.append ⟨Or.inl (by decide), trivial⟩ ?_)
      (marked_spots ss)) ⟨Or.inl (by decide), trivial⟩) (marked_slop sl)
    cases f with
    | none => exact ⟨Or.inl (by decide), Or.inl (by decide), trivial⟩
    | some w => trivial
  | .noPhrase sl => exact Marked.append ⟨Or.inl (by decide), Or.inl (by decide), trivial⟩ (marked_slop sl)
  | .between a b true true => exact ⟨Or.inl (by decide), Or.inl (by decide), trivial⟩
  | .between a b true false => exact ⟨Or.inl (by decide), Or.inl (by decide), trivial⟩
  | .between a b false true => exact ⟨Or.inl (by decide), Or.inl (by decide), trivial⟩
  | .between a b false false => exact ⟨Or.inl (by decide), Or.inl (by decide), trivial⟩
  | .below a true true => exact ⟨Or.inl (by decide), Or.inl (by decide), trivial⟩
  | .below a false true => exact ⟨Or.inl (by decide), Or.inl (by decide), trivial⟩
  | .below a true false => exact ⟨Or.inl (by decide), Or.inl (by decide), trivial⟩
  | .below a false false => exact ⟨Or.inl (by decide), trivial⟩
  | .above a true true => exact ⟨Or.inl (by decide), Or.inl (by decide), trivial⟩
  | .above a false true => exact ⟨Or.inl (by decide), Or.inl (by decide), trivial⟩
  | .above a true false => exact ⟨Or.inl (by decide), Or.inl (by decide), trivial⟩
  | .above a false false => exact ⟨Or.inl (by decide), trivial⟩

mutual
theorem marked_exp : ∀ e : QExp, Marked e.written
  | .leaf l => marked_leaf l
  | .nothing => ⟨Or.inl (by decide), Or.inl (by decide), trivial⟩
  | .parens cs => Marked.append (Marked.append ⟨Or.inl (by decide), trivial⟩ (marked_clauses cs))
      ⟨Or.inl (by decide), trivial⟩
  | .within f fs e => Marked.append (Marked.append (Marked.append (a := [.word f]) trivial (marked_fields fs))
      ⟨Or.inl (by decide), trivial⟩) (marked_exp e)
  | .everywhere e => ⟨Or.inr ⟨rfl, _, rfl⟩, Or.inl (by decide), marked_exp e⟩
theorem marked_clause : ∀ c : QClause, Marked c.written
  | .mk s e b => by
    refine Marked.append (Marked.append ?_ (marked_exp e)) ?_
    · cases s <;> trivial
    · cases b with
      | none => trivial
      | some w => exact ⟨Or.inl (by decide), trivial⟩
theorem marked_clauses : ∀ cs : QClauses, Marked cs.written
  | .one c => marked_clause c
  | .more cs j c => by
    refine Marked.append (Marked.append (marked_clauses cs) ?_) (marked_clause c)
    cases j <;> trivial
end

/-! ### Cleaning what was typed -/

/-- Cleaning keeps this outside quotes. -/
def Clear (x : List Char) : Prop := ∀ (out : List Char) (pb : Option Char) (br : Nat), pb ≠ some '\\' →
  ∃ pb', pb' ≠ some '\\' ∧ pureLoop ⟨out, pb, br, false⟩ x = ⟨x.reverse ++ out, pb', br, false⟩

theorem pureLoop_append (st : Cl) (a b : List Char) : pureLoop st (a ++ b) = pureLoop (pureLoop st a) b := by
  simp [pureLoop]

theorem Clear.nil : Clear [] := fun _ pb _ h => ⟨pb, h, rfl⟩

theorem Clear.append {a b : List Char} (ha : Clear a) (hb : Clear b) : Clear (a ++ b) := by
  intro out pb br h
  obtain ⟨pb1, h1, e1⟩ := ha out pb br h
  obtain ⟨pb2, h2, e2⟩ := hb (a.reverse ++ out) pb1 br h1
  exact ⟨pb2, h2, by rw [pureLoop_append, e1, e2]; simp⟩

theorem Clear.flat {α : Type} {f : α → List Char} : ∀ {l : List α}, (∀ a ∈ l, Clear (f a)) → Clear (l.flatMap f)
  | [], _ => Clear.nil
  | a :: l, h => by
    rw [List.flatMap_cons]
    exact (h a List.mem_cons_self).append (Clear.flat (fun b hb => h b (List.mem_cons_of_mem _ hb)))

theorem clear_one {c : Char} (h : c ∉ ['\\', '"', '(', ')']) : Clear [c] := by
  intro out pb br hp
  simp only [List.mem_cons, List.not_mem_nil, or_false, not_or] at h
  refine ⟨some c, by simpa using h.1, ?_⟩
  simp only [pureLoop, List.foldl_cons, List.foldl_nil, pureStep]
  rw [if_neg hp, if_neg h.1, if_neg h.2.1, if_neg h.2.2.1, if_neg h.2.2.2]
  split <;> rfl

theorem clear_esc (c : Char) : Clear ['\\', c] := by
  intro out pb br hp
  refine ⟨some (if c = '\\' then 'r' else c), ?_, ?_⟩
  · split
    · decide
    · rename_i h; simpa using h
  · simp only [pureLoop, List.foldl_cons, List.foldl_nil]
    rw [show pureStep ⟨out, pb, br, false⟩ '\\' = ⟨'\\' :: out, some '\\', br, false⟩ by
      unfold pureStep; simp only []; rw [if_neg hp]; rfl]
    rfl

theorem clear_piece (c : Char) : Clear (pieceOf c).written := by
  unfold pieceOf
  split
  · exact clear_esc c
  · rename_i h
    refine clear_one ?_
    intro hm
    have hsub : ∀ x ∈ ['\\', '"', '(', ')'], x ∈ qEscaped := by decide
    exact h (hsub c hm)

theorem clear_wpiece (c : Char) : Clear (wpieceOf c).written := by
  unfold wpieceOf
  split
  · rename_i h
    rcases h with rfl | rfl <;> exact clear_one (by decide)
  · exact clear_piece c

theorem clear_word (w : QWord) : Clear (typedWord w) := by
  rw [typedWord_eq, writtenAs, List.flatMap_map]
  exact Clear.flat (fun c _ => clear_piece c)

theorem clear_wild (w : QWord) : Clear (typedWild w) := by
  rw [typedWild_eq, writtenAs, List.flatMap_map]
  exact Clear.flat (fun c _ => clear_wpiece c)

theorem typed_append (a b : List QTok) : typed (a ++ b) = typed a ++ typed b := by simp [typed]

/-- Words and marks that are neither quotes nor parentheses are kept. -/
theorem clear_toks {ts : List QTok} (h : ∀ c, QTok.sym c ∈ ts → c ∉ ['\\', '"', '(', ')']) : Clear (typed ts) := by
  refine Clear.flat (fun t ht => ?_)
  have hb : Clear [' '] := clear_one (by decide)
  cases t with
  | word w => exact (clear_word w).append hb
  | wild w => exact (clear_wild w).append hb
  | and => exact Clear.append (a := ['&']) (clear_one (by decide)) (Clear.append (a := ['&']) (clear_one (by decide)) hb)
  | or => exact Clear.append (a := ['|']) (clear_one (by decide)) (Clear.append (a := ['|']) (clear_one (by decide)) hb)
  | req => exact Clear.append (a := ['+']) (clear_one (by decide)) hb
  | not => exact Clear.append (a := ['-']) (clear_one (by decide)) hb
  | sym c =>
    rw [QTok.typed]
    split
    · exact clear_one (h c ht)
    · exact Clear.append (a := [c]) (clear_one (h c ht)) hb

/-- Cleaning keeps this inside quotes. -/
def Inner (x : List Char) : Prop := ∀ (out : List Char) (pb : Option Char) (br : Nat), pb ≠ some '\\' →
  pb ≠ some '<' →
  ∃ pb', pb' ≠ some '\\' ∧ pb' ≠ some '<' ∧ pureLoop ⟨out, pb, br, true⟩ x = ⟨x.reverse ++ out, pb', br, true⟩

theorem Inner.append {a b : List Char} (ha : Inner a) (hb : Inner b) : Inner (a ++ b) := by
  intro out pb br h h'
  obtain ⟨pb1, h1, h1', e1⟩ := ha out pb br h h'
  obtain ⟨pb2, h2, h2', e2⟩ := hb (a.reverse ++ out) pb1 br h1 h1'
  exact ⟨pb2, h2, h2', by rw [pureLoop_append, e1, e2]; simp⟩

theorem Inner.flat {α : Type} {f : α → List Char} : ∀ {l : List α}, (∀ a ∈ l, Inner (f a)) → Inner (l.flatMap f)
  | [], _ => fun _ pb _ h h' => ⟨pb, h, h', rfl⟩
  | a :: l, h => by
    rw [List.flatMap_cons]
    exact (h a List.mem_cons_self).append (Inner.flat (fun b hb => h b (List.mem_cons_of_mem _ hb)))

theorem inner_one {c : Char} (h : c = '|' ∨ (c ∉ qSpecial ∧ c ≠ '\\')) : Inner [c] := by
  intro out pb br hp hp'
  have hne : c ≠ '\\' ∧ c ≠ '"' ∧ c ≠ '(' ∧ c ≠ ')' ∧ c ≠ '>' ∧ c ≠ '<' := by
    rcases h with rfl | ⟨h, h'⟩
    · decide
    · refine ⟨h', ?_, ?_, ?_, ?_, ?_⟩ <;> (rintro rfl; exact h (by decide))
  refine ⟨some c, by simpa using hne.1, by simpa using hne.2.2.2.2.2, ?_⟩
  simp only [pureLoop, List.foldl_cons, List.foldl_nil, pureStep]
  rw [if_neg hp, if_neg hne.1, if_neg hne.2.1, if_neg hne.2.2.1, if_neg hne.2.2.2.1, if_neg hne.2.2.2.2.1]
  rw [if_neg]
  · rfl
  · rcases h with rfl | ⟨h, h'⟩
    · decide
    · have : specialChars.contains c = false := by
        rw [specialChars_eq]
        simpa using h
      simp only [this, Bool.false_and, Bool.and_false]
      decide

theorem inner_gap : Inner ['<', '>', ' '] := by
  intro out pb br hp hp'
  refine ⟨some ' ', by decide, by decide, ?_⟩
  simp only [pureLoop, List.foldl_cons, List.foldl_nil]
  rw [show pureStep ⟨out, pb, br, true⟩ '<' = ⟨'<' :: '\\' :: out, some '<', br, true⟩ by
    unfold pureStep; simp only []; rw [if_neg hp]; rfl]
  rfl

theorem inner_word {w : QWord} (h : w.all (fun c => !qEscaped.contains c) = true) : Inner (typed [.word w]) := by
  have hw : ∀ c ∈ w, c ∉ qEscaped := by
    intro c hc
    have := List.all_eq_true.1 h c hc
    simpa using this
  have : typed [.word w] = typedWord w ++ [' '] := by simp [typed, QTok.typed]
  rw [this]
  refine Inner.append ?_ (inner_one (Or.inr (by decide)))
  refine Inner.flat (fun c hc => ?_)
  rw [if_neg (hw c hc)]
  exact inner_one (Or.inr ⟨(not_escaped (hw c hc)).2.2.2, (not_escaped (hw c hc)).2.1⟩)

theorem inner_spots : ∀ {ss : List QSpot}, ss.all (fun
      | .next w => w.all (fun c => !qEscaped.contains c)
      | .alt w => w.all (fun c => !qEscaped.contains c)
      | .gap => true) = true → Inner (typed (ss.flatMap QSpot.written))
  | [], _ => fun _ pb _ h h' => ⟨pb, h, h', rfl⟩
  | s :: ss, h => by
    rw [List.all_cons, Bool.and_eq_true] at h
    rw [List.flatMap_cons, typed_append]
    refine Inner.append ?_ (inner_spots h.2)
    match s, h.1 with
    | .next w, h1 => exact inner_word h1
    | .gap, _ => exact inner_gap
    | .alt w, h1 =>
      exact Inner.append (a := ['|', ' ']) (Inner.append (a := ['|']) (inner_one (Or.inl rfl)) (inner_one (Or.inr (by decide))))
        (inner_word h1)

/-- A phrase is kept. -/
theorem clear_quoted {x : List Char} (h : Inner x) : Clear (['"', ' '] ++ x ++ ['"', ' ']) := by
  intro out pb br hp
  rw [pureLoop_append, pureLoop_append]
  have e1 : pureLoop ⟨out, pb, br, false⟩ ['"', ' '] = ⟨' ' :: '"' :: out, some ' ', br, true⟩ := by
    simp only [pureLoop, List.foldl_cons, List.foldl_nil]
    rw [show pureStep ⟨out, pb, br, false⟩ '"' = ⟨'"' :: out, some '"', br, true⟩ by
      unfold pureStep; simp only []; rw [if_neg hp]; rfl]
    rfl
  obtain ⟨pb2, h2, h2', e2⟩ := h (' ' :: '"' :: out) (some ' ') br (by decide) (by decide)
  refine ⟨some ' ', by decide, ?_⟩
  rw [e1, e2]
  simp only [pureLoop, List.foldl_cons, List.foldl_nil]
  rw [show pureStep ⟨x.reverse ++ ' ' :: '"' :: out, pb2, br, true⟩ '"' =
      ⟨'"' :: (x.reverse ++ ' ' :: '"' :: out), some '"', br, false⟩ by
    unfold pureStep; simp only []; rw [if_neg h2]; rfl]
  simp only [List.reverse_append, List.reverse_cons, List.reverse_nil, List.nil_append, List.append_assoc, List.cons_append]
  rfl

/-- Parentheses are kept. -/
theorem clear_parens {x : List Char} (h : Clear x) : Clear (['(', ' '] ++ x ++ [')', ' ']) := by
  intro out pb br hp
  rw [pureLoop_append, pureLoop_append]
  have e1 : pureLoop ⟨out, pb, br, false⟩ ['(', ' '] = ⟨' ' :: '(' :: out, some ' ', br + 1, false⟩ := by
    simp only [pureLoop, List.foldl_cons, List.foldl_nil]
    rw [show pureStep ⟨out, pb, br, false⟩ '(' = ⟨'(' :: out, some '(', br + 1, false⟩ by
      unfold pureStep; simp only []; rw [if_neg hp]; rfl]
    rfl
  obtain ⟨pb2, h2, e2⟩ := h (' ' :: '(' :: out) (some ' ') (br + 1) (by decide)
  refine ⟨some ' ', by decide, ?_⟩
  rw [e1, e2]
  simp only [pureLoop, List.foldl_cons, List.foldl_nil]
  rw [show pureStep ⟨x.reverse ++ ' ' :: '(' :: out, pb2, br + 1, false⟩ ')' =
      ⟨')' :: (x.reverse ++ ' ' :: '(' :: out), some ')', br, false⟩ by
    unfold pureStep; simp only []; rw [if_neg h2]; rfl]
  simp only [List.reverse_append, List.reverse_cons, List.reverse_nil, List.nil_append, List.append_assoc, List.cons_append]
  rfl

theorem clear_slop (s : Option QWord) : Clear (typed (writtenSlop s)) := by
  cases s with
  | none => exact Clear.nil
  | some w => exact clear_toks (by simp [writtenSlop])

theorem clear_leaf (l : QLeaf) (h : l.plain = true) : Clear (typed l.written) := by
  match l with
  | .phrase f ss sl =>
    simp only [QLeaf.plain, Bool.and_eq_true] at h
    simp only [QLeaf.written, typed_append]
    refine Clear.append ?_ (clear_slop sl)
    have := clear_quoted (x := typed (writtenFirst f) ++ typed (ss.flatMap QSpot.written)) (Inner.append ?_ (inner_spots h.2))
    · rw [List.append_assoc (typed _) (typed _) (typed _)]
      exact this
    · cases f with
      | none => exact inner_gap
      | some w => exact inner_word (by simpa using h.1)
  | .noPhrase sl =>
    rw [QLeaf.written, typed_append]
    refine Clear.append ?_ (clear_slop sl)
    exact clear_quoted (x := []) (fun _ pb _ h h' => ⟨pb, h, h', rfl⟩)
  | .word w => exact clear_toks (by simp [QLeaf.written])
  | .fuzzy w none => exact clear_toks (by simp [QLeaf.written])
  | .fuzzy w (some s) => exact clear_toks (by simp [QLeaf.written])
  | .wild w => exact clear_toks (by simp [QLeaf.written])
  | .between a b true true => exact clear_toks (by simp [QLeaf.written])
  | .between a b true false => exact clear_toks (by simp [QLeaf.written])
  | .between a b false true => exact clear_toks (by simp [QLeaf.written])
  | .between a b false false => exact clear_toks (by simp [QLeaf.written])
  | .below a true true => exact clear_toks (by simp [QLeaf.written])
  | .below a false true => exact clear_toks (by simp [QLeaf.written])
  | .below a true false => exact clear_toks (by simp [QLeaf.written])
  | .below a false false => exact clear_toks (by simp [QLeaf.written])
  | .above a true true => exact clear_toks (by simp [QLeaf.written])
  | .above a false true => exact clear_toks (by simp [QLeaf.written])
  | .above a true false => exact clear_toks (by simp [QLeaf.written])
  | .above a false false => exact clear_toks (by simp [QLeaf.written])

mutual
theorem clear_exp : ∀ e : QExp, e.plain = true → Clear (typed e.written)
  | .leaf l, h => clear_leaf l h
  | .nothing, _ => clear_parens Clear.nil
  | .parens cs, h => by
    rw [QExp.plain] at h
    rw [QExp.written, typed_append, typed_append]
    exact clear_parens (clear_clauses cs h)
  | .within f fs e, h => by
    rw [QExp.plain] at h
    rw [QExp.written, typed_append]
    refine Clear.append (clear_toks ?_) (clear_exp e h)
    intro c hc
    simp only [List.mem_append, List.mem_flatMap, List.mem_cons, List.not_mem_nil, or_false, reduceCtorEq, false_or,
      QTok.sym.injEq] at hc
    rcases hc with ⟨g, -, rfl⟩ | rfl <;> decide
  | .everywhere e, h => by
    rw [QExp.plain] at h
    rw [QExp.written, typed_append]
    exact Clear.append (clear_toks (by simp)) (clear_exp e h)
theorem clear_clause : ∀ c : QClause, c.plain = true → Clear (typed c.written)
  | .mk s e b, h => by
    rw [QClause.plain] at h
    rw [QClause.written, typed_append, typed_append]
    refine Clear.append (Clear.append (clear_toks ?_) (clear_exp e h)) (clear_toks ?_)
    · cases s <;> simp [QSign.written]
    · cases b <;> simp [writtenBoost]
theorem clear_clauses : ∀ cs : QClauses, cs.plain = true → Clear (typed cs.written)
  | .one c, h => clear_clause c h
  | .more cs j c, h => by
    rw [QClauses.plain, Bool.and_eq_true] at h
    rw [QClauses.written, typed_append, typed_append]
    refine Clear.append (Clear.append (clear_clauses cs h.1) (clear_toks ?_)) (clear_clause c h.2)
    cases j <;> simp [QJoin.written]
end

theorem clear_clean {x : List Char} (h : Clear x) : cleanStr x = .ok x := by
  rw [cleanStr_ok]
  obtain ⟨pb, -, e⟩ := h [] none 0 (by simp)
  rw [e]
  simp [finish]

end Ferret.QP
