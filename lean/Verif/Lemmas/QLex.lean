import Verif.Model.QLex
import Verif.Spec.QText
import Verif.Lemmas.QClean

/-!
Lemmas about the lexer of the query parser.
-/

namespace Ferret.QP
open Ferret.Spec

theorem notWord_eq : notWord = qEnds := by decide

/-- The buffer in use has room for one more character. -/
def Wd.Room (cap : Nat) (w : Wd) : Prop := w.buf.length < (if w.dyn then cap else maxWordSize)

theorem put_room {cap : Nat} {w : Wd} {c : Char} (h : w.Room cap) :
    w.put cap c = .ok { w with buf := c :: w.buf } := if_pos h

/-- The allocated buffer is in use from MAX_WORD_SIZE characters on. -/
def Wd.Fits (w : Wd) : Prop := w.dyn = decide (maxWordSize ≤ w.buf.length)

theorem Fits.room {cap : Nat} {w : Wd} (h : w.Fits) (hl : w.buf.length < cap) : w.Room cap := by
  unfold Wd.Room
  unfold Wd.Fits at h
  by_cases hm : maxWordSize ≤ w.buf.length
  · rw [h, decide_eq_true hm]; simpa using hl
  · rw [h, decide_eq_false hm]; simp; omega

theorem grow_fits {w : Wd} (c : Char) (v : Bool) (h : w.Fits) :
    (Wd.grow ⟨c :: w.buf, w.dyn, v⟩).Fits ∧ (Wd.grow ⟨c :: w.buf, w.dyn, v⟩).buf = c :: w.buf ∧
    (Wd.grow ⟨c :: w.buf, w.dyn, v⟩).wild = v := by
  unfold Wd.Fits at h ⊢
  unfold Wd.grow
  by_cases hm : maxWordSize ≤ w.buf.length
  · rw [decide_eq_true hm] at h
    simp [h]; omega
  · rw [decide_eq_false hm] at h
    by_cases he : w.buf.length + 1 = maxWordSize
    · simp [h, he]
    · simp [h, he]; omega

theorem grow_short {w : Wd} (h : w.Fits) (hl : w.buf.length + 2 < maxWordSize) (a b : Char) (v : Bool) :
    Wd.grow ⟨a :: b :: w.buf, w.dyn, v⟩ = ⟨a :: b :: w.buf, w.dyn, v⟩ ∧
    (⟨a :: b :: w.buf, w.dyn, v⟩ : Wd).Fits := by
  unfold Wd.Fits at h ⊢
  rw [decide_eq_false (by omega)] at h
  unfold Wd.grow
  simp [h]; omega

theorem noColons_tail {c : Char} {s : List Char} (h : NoColons (c :: s)) : NoColons s :=
  fun a b e => h (c :: a) b (by rw [e]; rfl)

/-- The loop of get_word stays within its buffers, and gives back a rest of the text. -/
theorem wordLoop_ok {cap : Nat} : ∀ (n : Nat) (s : List Char) (w : Wd), s.length ≤ n → w.Fits →
    w.buf.length + s.length < cap → (NoColons s ∨ w.buf.length + s.length < maxWordSize) →
    ∃ w' rest used, wordLoop cap w s = .ok (w', rest) ∧ w'.Fits ∧ s = used ++ rest ∧
      w'.buf.length ≤ w.buf.length + used.length := by
  intro n
  induction n with
  | zero =>
    intro s w hn hf _ _
    have : s = [] := List.length_eq_zero_iff.1 (by omega)
    subst this
    exact ⟨w, [], [], by simp [wordLoop], hf, rfl, by simp⟩
  | succ n ih =>
    intro s w hn hf hl hc
    match s with
    | [] => exact ⟨w, [], [], by simp [wordLoop], hf, rfl, by simp⟩
    | c :: s =>
      simp only [List.length_cons] at hn hl hc
      have hr := Fits.room hf (show w.buf.length < cap by omega)
      rw [wordLoop.eq_def]
      simp only []
      split
      · exact ⟨w, c :: s, [], rfl, hf, rfl, by simp⟩
      split
      · match s with
        | [] =>
          obtain ⟨g1, g2, -⟩ := grow_fits '\\' w.wild hf
          exact ⟨_, [], [c], by simp only [put_room hr, Res.ok_bind]; rfl, g1, rfl, by rw [g2]; simp⟩
        | d :: s' =>
          obtain ⟨g1, g2, -⟩ := grow_fits d w.wild hf
          simp only [List.length_cons] at hn hl hc
          obtain ⟨w', rest, used, e1, e2, e3, e4⟩ := ih s' (Wd.grow ⟨d :: w.buf, w.dyn, w.wild⟩) (by omega) g1
            (by rw [g2]; simp; omega)
            (by
              rcases hc with hc | hc
              · exact Or.inl (noColons_tail (noColons_tail hc))
              · exact Or.inr (by rw [g2]; simp; omega))
          refine ⟨w', rest, c :: d :: used, ?_, e2, by rw [e3]; rfl, ?_⟩
          · simp only [put_room hr, Res.ok_bind]; exact e1
          · rw [g2] at e4; simp at e4 ⊢; omega
      split
      · match s with
        | [] => exact ⟨w, [c], [], rfl, hf, rfl, by simp⟩
        | d :: s' =>
          simp only [List.length_cons] at hn hl hc
          simp only []
          split
          · rename_i hcc hd
            rcases hc with hc | hc
            · exact absurd (by rw [hcc, hd]; rfl) (hc [] s')
            · obtain ⟨g1, g2⟩ := grow_short hf (show w.buf.length + 2 < maxWordSize by omega) ':' ':' w.wild
              obtain ⟨w', rest, used, e1, e2, e3, e4⟩ := ih s' ⟨':' :: ':' :: w.buf, w.dyn, w.wild⟩ (by omega) g2
                (by simp; omega) (Or.inr (by simp; omega))
              refine ⟨w', rest, c :: d :: used, ?_, e2, by rw [e3]; rfl, ?_⟩
              · have hr2 : (⟨':' :: w.buf, w.dyn, w.wild⟩ : Wd).Room cap := by
                  unfold Wd.Room
                  unfold Wd.Fits at hf
                  rw [decide_eq_false (by omega)] at hf
                  simp [hf]; omega
                simp only [put_room hr, Res.ok_bind, put_room hr2, g1]; exact e1
              · simp at e4 ⊢; omega
          · exact ⟨w, c :: d :: s', [], rfl, hf, rfl, by simp⟩
      · have key : ∀ v, ∃ w' rest used, wordLoop cap (Wd.grow ⟨c :: w.buf, w.dyn, v⟩) s = .ok (w', rest) ∧
            w'.Fits ∧ s = used ++ rest ∧ w'.buf.length ≤ w.buf.length + 1 + used.length := by
          intro v
          obtain ⟨g1, g2, -⟩ := grow_fits c v hf
          obtain ⟨w', rest, used, e1, e2, e3, e4⟩ := ih s (Wd.grow ⟨c :: w.buf, w.dyn, v⟩) (by omega) g1
            (by rw [g2]; simp; omega)
            (by
              rcases hc with hc | hc
              · exact Or.inl (noColons_tail hc)
              · exact Or.inr (by rw [g2]; simp; omega))
          rw [g2] at e4
          exact ⟨w', rest, used, e1, e2, e3, by simpa using e4⟩
        simp only [put_room hr, Res.ok_bind]
        by_cases hw : (decide (c = '*') || decide (c = '?')) = true
        · obtain ⟨w', rest, used, e1, e2, e3, e4⟩ := key true
          exact ⟨w', rest, c :: used, by rw [if_pos hw]; exact e1, e2, by rw [e3]; rfl,
            by simp at e4 ⊢; omega⟩
        · obtain ⟨w', rest, used, e1, e2, e3, e4⟩ := key w.wild
          exact ⟨w', rest, c :: used, by rw [if_neg hw]; exact e1, e2, by rw [e3]; rfl,
            by simp at e4 ⊢; omega⟩

/-- The first character of a word is used up. -/
theorem wordLoop_first {cap : Nat} {c : Char} {s : List Char} {w w' : Wd} {rest : List Char}
    (h : wordLoop cap w (c :: s) = .ok (w', rest)) (hn : c ∉ notWord) (hc : c ≠ ':') :
    rest.length ≤ s.length := by
  have suffix : ∀ (n : Nat) (s : List Char) (w : Wd), s.length ≤ n → ∀ {w' : Wd} {rest : List Char},
      wordLoop cap w s = .ok (w', rest) → rest.length ≤ s.length := by
    intro n
    induction n with
    | zero =>
      intro s w hn w' rest h
      have : s = [] := List.length_eq_zero_iff.1 (by omega)
      subst this
      simp only [wordLoop, Res.ok.injEq, Prod.mk.injEq] at h
      simp [← h.2]
    | succ n ih =>
      intro s w hn w' rest h
      match s with
      | [] => simp only [wordLoop, Res.ok.injEq, Prod.mk.injEq] at h; simp [← h.2]
      | c :: s =>
        simp only [List.length_cons] at hn
        rw [wordLoop.eq_def] at h
        simp only [] at h
        split at h
        · simp only [Res.ok.injEq, Prod.mk.injEq] at h; simp [← h.2]
        split at h
        · match s with
          | [] =>
            obtain ⟨_, -, h⟩ := Res.bind_eq_ok.1 h
            simp only [Res.pure_eq, Res.ok.injEq, Prod.mk.injEq] at h; simp [← h.2]
          | d :: s' =>
            obtain ⟨_, -, h⟩ := Res.bind_eq_ok.1 h
            simp only [List.length_cons] at hn ⊢
            have := ih s' _ (by omega) h
            omega
        split at h
        · match s with
          | [] => simp only [Res.ok.injEq, Prod.mk.injEq] at h; simp [← h.2]
          | d :: s' =>
            simp only [List.length_cons] at hn ⊢
            simp only [] at h
            split at h
            · obtain ⟨_, -, h⟩ := Res.bind_eq_ok.1 h
              obtain ⟨_, -, h⟩ := Res.bind_eq_ok.1 h
              have := ih s' _ (by omega) h
              omega
            · simp only [Res.ok.injEq, Prod.mk.injEq] at h; simp [← h.2]
        · obtain ⟨_, -, h⟩ := Res.bind_eq_ok.1 h
          have := ih s _ (by omega) h
          simp only [List.length_cons]; omega
  rw [wordLoop.eq_def] at h
  simp only [List.contains_iff_mem, hn, if_false, hc] at h
  split at h
  · match s with
    | [] =>
      obtain ⟨_, -, h⟩ := Res.bind_eq_ok.1 h
      simp only [Res.pure_eq, Res.ok.injEq, Prod.mk.injEq] at h; simp [← h.2]
    | d :: s' =>
      obtain ⟨_, -, h⟩ := Res.bind_eq_ok.1 h
      have := suffix _ s' _ (Nat.le_refl _) h
      simp only [List.length_cons]; omega
  · obtain ⟨_, -, h⟩ := Res.bind_eq_ok.1 h
    exact suffix _ s _ (Nat.le_refl _) h

/-- The tokens of one call of yylex on a text that is no longer than the query. -/
structure LexOk (s : List Char) (t : LexTok) (rest : List Char) : Prop where
  shorter : t.tok ≠ .eof → rest.length < s.length
  ended : t.tok = .eof → rest = []
  word : t.call = false → t.text = []
  long : t.dyn = true → maxWordSize ≤ t.text.length
  short : t.dyn = false → t.text.length < maxWordSize
  suffix : ∃ used, s = used ++ rest ∧ t.text.length ≤ used.length

theorem getWord_ok {keys : Bool} {qlen : Nat} {c : Char} {s : List Char} (hl : s.length + 1 ≤ qlen)
    (hc : NoColons (c :: s) ∨ s.length + 1 < maxWordSize) (h1 : c ∉ notWord) (h2 : c ≠ ':') :
    ∃ t rest, getWord keys qlen (c :: s) = .ok (t, rest) ∧ LexOk (c :: s) t rest ∧ t.tok ≠ .eof := by
  obtain ⟨w, rest, used, e1, e2, e3, e4⟩ := wordLoop_ok (cap := qlen + 1) (s.length + 1) (c :: s)
    ⟨[], false, false⟩ (by simp) (by unfold Wd.Fits; decide) (by simp; omega) (by simpa using hc)
  have hfst := wordLoop_first e1 h1 h2
  have hroom := Fits.room (cap := qlen + 1) e2 (by
    have := congrArg List.length e3
    simp at this e4; omega)
  unfold Wd.Room at hroom
  unfold getWord
  simp only [e1, Res.ok_bind]
  rw [if_pos hroom]
  simp only [List.length_nil, Nat.zero_add] at e4
  have hkw : ∀ t, (if keys then keyword w.buf.reverse else none) = some t → t ≠ .eof := by
    intro t ht
    cases keys
    · simp at ht
    · simp only [if_true, keyword] at ht
      repeat' split at ht
      all_goals simp at ht
      all_goals subst ht
      all_goals simp
  cases hk : (if keys then keyword w.buf.reverse else none) with
  | some t =>
    exact ⟨_, rest, rfl, ⟨fun _ => by simpa using by omega, fun h => absurd h (hkw t hk), fun _ => rfl,
      (fun h => by cases h), fun _ => by simp [maxWordSize], ⟨used, e3, by simp⟩⟩, hkw t hk⟩
  | none =>
    have hne : (if w.wild then Tok.wild else Tok.word) ≠ .eof := by cases w.wild <;> simp
    unfold Wd.Fits at e2
    refine ⟨_, rest, rfl, ⟨fun _ => by simpa using by omega, fun h => absurd h hne, (fun h => by cases h), ?_, ?_,
      ⟨used, e3, by simpa using e4⟩⟩, hne⟩
    · intro h
      simp only [e2, decide_eq_true_eq] at h
      simpa using h
    · intro h
      simp only [e2, decide_eq_false_iff_not] at h
      simp; omega

theorem plain_lexOk {c : Char} {s rest used : List Char} {t : Tok} (ht : t ≠ .eof)
    (h : c :: s = used ++ rest) (hu : used ≠ []) : LexOk (c :: s) (plainTok t) rest := by
  refine ⟨fun _ => ?_, fun h => absurd h ht, fun _ => rfl, (fun h => by cases h),
    fun _ => by simp [plainTok, maxWordSize], ⟨used, h, by simp [plainTok]⟩⟩
  have := congrArg List.length h
  have := List.length_pos_iff.2 hu
  simp at *; omega

theorem lexHere_ok {keys : Bool} {qlen : Nat} {s : List Char} (hl : s.length ≤ qlen)
    (hc : NoColons s ∨ s.length < maxWordSize) (hb : ∀ c, s.head? = some c → c ≠ ' ' ∧ c ≠ '\t') :
    ∃ t rest, lexHere keys qlen s = .ok (t, rest) ∧ LexOk s t rest := by
  match s with
  | [] => exact ⟨_, [], rfl, ⟨fun h => absurd rfl h, fun _ => rfl, fun _ => rfl, (fun h => by cases h),
      fun _ => by simp [plainTok, maxWordSize], ⟨[], rfl, by simp [plainTok]⟩⟩⟩
  | c :: s =>
    have hb := hb c rfl
    have word : c ∉ notWord → c ≠ ':' → ∃ t rest, getWord keys qlen (c :: s) = .ok (t, rest) ∧
        LexOk (c :: s) t rest := fun h1 h2 => by
      obtain ⟨t, rest, e1, e2, -⟩ := getWord_ok (keys := keys) (by simpa using hl) (by simpa using hc) h1 h2
      exact ⟨t, rest, e1, e2⟩
    have one : ∀ t, t ≠ Tok.eof → LexOk (c :: s) (plainTok t) s := fun t ht =>
      plain_lexOk (used := [c]) ht rfl (by simp)
    have two : ∀ d t, s.head? = some d → t ≠ Tok.eof → LexOk (c :: s) (plainTok t) s.tail := by
      intro d t hd ht
      match s, hd with
      | d' :: s', _ => exact plain_lexOk (used := [c, d']) ht rfl (by simp)
    simp only [lexHere]
    split
    · split
      · exact ⟨_, s, rfl, one _ (by simp)⟩
      split
      · exact ⟨_, s, rfl, one _ (by simp)⟩
      split
      · rename_i h
        subst h
        split
        · exact ⟨_, s, rfl, one _ (by simp)⟩
        · exact word (by decide) (by decide)
      split
      · rename_i h
        subst h
        exact word (by decide) (by decide)
      split
      · rename_i h
        subst h
        split
        · rename_i h2
          exact ⟨_, s.tail, rfl, two _ _ h2 (by simp)⟩
        · exact word (by decide) (by decide)
      split
      · split
        · rename_i h2
          exact ⟨_, s.tail, rfl, two _ _ h2 (by simp)⟩
        · exact ⟨_, s, rfl, one _ (by simp)⟩
      · exact ⟨_, s, rfl, one _ (by simp)⟩
    · rename_i hs
      refine word (fun h => ?_) (by rintro rfl; exact hs (by decide))
      have hall : ∀ x ∈ notWord, specialChars.contains x = true ∨ x = ' ' ∨ x = '\t' := by decide
      rcases hall c h with h | h | h
      · exact hs h
      · exact hb.1 h
      · exact hb.2 h

theorem noColons_suffix {u r : List Char} (h : NoColons (u ++ r)) : NoColons r :=
  fun a b e => h (u ++ a) b (by rw [e, List.append_assoc])

theorem yylex_ok {keys : Bool} {qlen : Nat} {s : List Char} (hl : s.length ≤ qlen)
    (hc : NoColons s ∨ s.length < maxWordSize) :
    ∃ t rest, yylex keys qlen s = .ok (t, rest) ∧ LexOk s t rest := by
  have hs : s = s.takeWhile (fun c => c == ' ' || c == '\t') ++ skipBlanks s :=
    List.takeWhile_append_dropWhile.symm
  have hlen := congrArg List.length hs
  rw [List.length_append] at hlen
  have hhead : ∀ c, (skipBlanks s).head? = some c → c ≠ ' ' ∧ c ≠ '\t' := by
    intro c hc
    have := List.head?_dropWhile_not (fun c : Char => c == ' ' || c == '\t') s
    unfold skipBlanks at hc
    rw [hc] at this
    simpa using this
  obtain ⟨t, rest, e1, e2⟩ := lexHere_ok (keys := keys) (qlen := qlen) (s := skipBlanks s) (by omega)
    (by
      rcases hc with hc | hc
      · exact Or.inl (noColons_suffix (hs ▸ hc))
      · exact Or.inr (by omega)) hhead
  obtain ⟨used, hu, hul⟩ := e2.suffix
  exact ⟨t, rest, e1, ⟨fun h => by have := e2.shorter h; omega, e2.ended, e2.word, e2.long, e2.short,
    ⟨_ ++ used, by rw [List.append_assoc, ← hu]; exact hs, by rw [List.length_append]; omega⟩⟩⟩

/-! ### Words as they are written -/

theorem wordLoop_stop {cap : Nat} {w : Wd} {rest : List Char} (h : QStop rest) :
    wordLoop cap w rest = .ok (w, rest) := by
  rcases h with rfl | ⟨c, r, rfl, hc⟩ | ⟨r, rfl, hr⟩
  · simp [wordLoop]
  · rw [wordLoop.eq_def]
    simp only [notWord_eq, List.contains_iff_mem, hc, if_true]
  · rw [wordLoop.eq_def]
    simp only []
    rw [if_neg (by decide), if_neg (by decide), if_pos trivial]
    match r with
    | [] => rfl
    | d :: r' =>
      have : d ≠ ':' := by simpa using hr
      simp [this]

/-- What a list of pieces means. -/
abbrev meantBy (ps : List QPiece) : List Char := ps.flatMap QPiece.meant

/-- How it is written. -/
abbrev writtenAs (ps : List QPiece) : List Char := ps.flatMap QPiece.written

theorem wordLoop_pieces {cap : Nat} {rest : List Char} (hr : QStop rest) : ∀ (ps : List QPiece) (w : Wd),
    (∀ p ∈ ps, p.Ok) → w.Fits → w.buf.length + (writtenAs ps).length < cap →
    (QPiece.colons ∉ ps ∨ w.buf.length + (meantBy ps).length < maxWordSize) →
    ∃ w', wordLoop cap w (writtenAs ps ++ rest) = .ok (w', rest) ∧ w'.Fits ∧
      w'.buf = (meantBy ps).reverse ++ w.buf ∧ w'.wild = (w.wild || ps.any QPiece.wild) := by
  intro ps
  induction ps with
  | nil => intro w _ hf _ _; exact ⟨w, by simpa using wordLoop_stop hr, hf, by simp, by simp⟩
  | cons p ps ih =>
    intro w hok hf hl hc
    have hok' : ∀ q ∈ ps, q.Ok := fun q hq => hok q (List.mem_cons_of_mem _ hq)
    have hp := hok p List.mem_cons_self
    have hlen : 1 ≤ p.written.length ∧ p.meant.length ≤ p.written.length := by
      cases p <;> simp [QPiece.written, QPiece.meant]
    have hroom := Fits.room hf (show w.buf.length < cap by simp at hl; omega)
    cases p with
    | plain c =>
      obtain ⟨p1, p2, p3⟩ := hp
      simp only [writtenAs, List.flatMap_cons, QPiece.written, List.length_append, List.length_cons,
        List.length_nil] at hl
      simp only [meantBy, List.flatMap_cons, QPiece.meant, List.length_append, List.length_cons,
        List.length_nil, List.mem_cons, not_or] at hc
      obtain ⟨g1, g2, g3⟩ := grow_fits c (w.wild || (QPiece.plain c).wild) hf
      obtain ⟨w', e1, e2, e3, e4⟩ := ih (Wd.grow ⟨c :: w.buf, w.dyn, w.wild || (QPiece.plain c).wild⟩) hok' g1
        (by rw [g2]; simp [writtenAs] at hl ⊢; omega)
        (by rw [g2]; rcases hc with hc | hc
            · exact Or.inl hc.2
            · exact Or.inr (by simp [meantBy] at hc ⊢; omega))
      refine ⟨w', ?_, e2, by rw [e3, g2]; simp [meantBy, QPiece.meant], ?_⟩
      · simp only [writtenAs, List.flatMap_cons, QPiece.written, List.singleton_append, List.cons_append,
          List.nil_append]
        rw [wordLoop.eq_def]
        simp only []
        rw [if_neg (by rw [notWord_eq, List.contains_iff_mem]; exact p1), if_neg p2, if_neg p3]
        simp only [put_room hroom, Res.ok_bind]
        rw [← e1]
        congr 1
        simp only [QPiece.wild]
        by_cases hw : (decide (c = '*') || decide (c = '?')) = true
        · rw [if_pos hw]; simp [hw]
        · rw [if_neg hw]; simp [hw]
      · rw [e4, g3]; simp [Bool.or_assoc]
    | esc c =>
      simp only [writtenAs, List.flatMap_cons, QPiece.written, List.length_append, List.length_cons,
        List.length_nil] at hl
      simp only [meantBy, List.flatMap_cons, QPiece.meant, List.length_append, List.length_cons,
        List.length_nil, List.mem_cons, not_or] at hc
      obtain ⟨g1, g2, g3⟩ := grow_fits c w.wild hf
      obtain ⟨w', e1, e2, e3, e4⟩ := ih (Wd.grow ⟨c :: w.buf, w.dyn, w.wild⟩) hok' g1
        (by rw [g2]; simp [writtenAs] at hl ⊢; omega)
        (by rw [g2]; rcases hc with hc | hc
            · exact Or.inl hc.2
            · exact Or.inr (by simp [meantBy] at hc ⊢; omega))
      refine ⟨w', ?_, e2, by rw [e3, g2]; simp [meantBy, QPiece.meant], ?_⟩
      · simp only [writtenAs, List.flatMap_cons, QPiece.written, List.cons_append, List.nil_append]
        rw [wordLoop.eq_def]
        simp only []
        rw [if_neg (by decide)]
        simp only [if_true, put_room hroom, Res.ok_bind]
        exact e1
      · rw [e4, g3]; simp [QPiece.wild]
    | colons =>
      simp only [writtenAs, List.flatMap_cons, QPiece.written, List.length_append, List.length_cons,
        List.length_nil] at hl
      simp only [meantBy, List.flatMap_cons, QPiece.meant, List.length_append, List.length_cons,
        List.length_nil, List.mem_cons, true_or, not_true, false_or] at hc
      obtain ⟨g1, g2⟩ := grow_short hf (show w.buf.length + 2 < maxWordSize by omega) ':' ':' w.wild
      obtain ⟨w', e1, e2, e3, e4⟩ := ih ⟨':' :: ':' :: w.buf, w.dyn, w.wild⟩ hok' g2
        (by simp [writtenAs] at hl ⊢; omega) (Or.inr (by simp [meantBy] at hc ⊢; omega))
      refine ⟨w', ?_, e2, by rw [e3]; simp [meantBy, QPiece.meant], by rw [e4]; simp [QPiece.wild]⟩
      simp only [writtenAs, List.flatMap_cons, QPiece.written, List.cons_append, List.nil_append]
      rw [wordLoop.eq_def]
      simp only []
      rw [if_neg (by decide), if_neg (by decide), if_pos trivial, if_pos trivial]
      have hr2 : (⟨':' :: w.buf, w.dyn, w.wild⟩ : Wd).Room cap := by
        unfold Wd.Room
        unfold Wd.Fits at hf
        rw [decide_eq_false (by omega)] at hf
        simp [hf]; omega
      simp only [if_true, put_room hroom, Res.ok_bind, put_room hr2, g1]
      exact e1

/-- A word as it is written, read as what it means. -/
theorem getWord_pieces {keys : Bool} {qlen : Nat} {ps : List QPiece} {p : QPiece} {rest : List Char}
    (hr : QStop rest) (hok : ∀ q ∈ p :: ps, q.Ok) (hk : keys = true → keyword (meantBy (p :: ps)) = none)
    (hl : (writtenAs (p :: ps)).length ≤ qlen)
    (hc : QPiece.colons ∉ p :: ps ∨ (meantBy (p :: ps)).length < maxWordSize) :
    getWord keys qlen (writtenAs (p :: ps) ++ rest) =
      .ok (⟨if (p :: ps).any QPiece.wild then .wild else .word, true, meantBy (p :: ps),
        decide (maxWordSize ≤ (meantBy (p :: ps)).length)⟩, rest) := by
  obtain ⟨w', e1, e2, e3, e4⟩ := wordLoop_pieces (cap := qlen + 1) hr (p :: ps) ⟨[], false, false⟩ hok
    (by unfold Wd.Fits; decide) (by show 0 + _ < _; omega) (by simpa using hc)
  have hml : ∀ qs : List QPiece, (meantBy qs).length ≤ (writtenAs qs).length := by
    intro qs
    induction qs with
    | nil => simp
    | cons q qs ih =>
      simp only [meantBy, writtenAs, List.flatMap_cons, List.length_append] at ih ⊢
      have : q.meant.length ≤ q.written.length := by cases q <;> simp [QPiece.meant, QPiece.written]
      omega
  have hml := hml (p :: ps)
  rw [List.append_nil] at e3
  have hroom := Fits.room (cap := qlen + 1) e2 (by rw [e3, List.length_reverse]; omega)
  unfold Wd.Room at hroom
  unfold getWord
  simp only [e1, Res.ok_bind]
  rw [if_pos hroom]
  rw [e3, List.reverse_reverse]
  rw [show (if keys then keyword (meantBy (p :: ps)) else none) = none by
    cases keys
    · rfl
    · simpa using hk rfl]
  simp only [e4, Bool.false_or]
  unfold Wd.Fits at e2
  rw [e2, e3, List.length_reverse]; rfl

/-- A word as it is written, behind blanks, read as what it means. -/
theorem yylex_pieces {keys : Bool} {qlen : Nat} {ps : List QPiece} {p : QPiece} {blanks rest : List Char}
    (hb : ∀ c ∈ blanks, c = ' ' ∨ c = '\t') (hr : QStop rest) (hok : ∀ q ∈ p :: ps, q.Ok)
    (hp : p.StartsWord)
    (hk : keys = true → keyword (meantBy (p :: ps)) = none)
    (hl : (writtenAs (p :: ps)).length ≤ qlen)
    (hc : QPiece.colons ∉ p :: ps ∨ (meantBy (p :: ps)).length < maxWordSize) :
    yylex keys qlen (blanks ++ writtenAs (p :: ps) ++ rest) =
      .ok (⟨if (p :: ps).any QPiece.wild then .wild else .word, true, meantBy (p :: ps),
        decide (maxWordSize ≤ (meantBy (p :: ps)).length)⟩, rest) := by
  have hgw := getWord_pieces (keys := keys) hr hok hk hl hc
  have hne : ∀ (x : Char) (l : List Char), x ∉ [' ', '\t'] →
      skipBlanks (blanks ++ (x :: l)) = x :: l := by
    intro x l hx
    unfold skipBlanks
    rw [List.dropWhile_append_of_pos (by
      intro c hc; rcases hb c hc with rfl | rfl <;> decide)]
    rw [List.dropWhile_cons_of_neg]
    simpa using hx
  rw [List.append_assoc]
  unfold yylex
  cases p with
  | plain c =>
    have hpok := hok _ List.mem_cons_self
    rw [show writtenAs (QPiece.plain c :: ps) ++ rest = c :: (writtenAs ps ++ rest) by
      simp [writtenAs, QPiece.written]] at hgw ⊢
    rw [hne _ _ (fun h => hpok.1 (by
      simp only [List.mem_cons, List.not_mem_nil, or_false] at h
      rcases h with rfl | rfl <;> decide))]
    simp only [lexHere]
    rcases hp with hp | hp
    · rw [if_neg (by rw [specialChars_eq, List.contains_iff_mem]; exact hp)]; exact hgw
    · subst hp
      rw [if_pos (by decide), if_neg (by decide), if_neg (by decide), if_neg (by decide), if_pos rfl]
      exact hgw
  | esc c =>
    rw [show writtenAs (QPiece.esc c :: ps) ++ rest = '\\' :: (c :: (writtenAs ps ++ rest)) by
      simp [writtenAs, QPiece.written]] at hgw ⊢
    rw [hne _ _ (by decide)]
    simp only [lexHere]
    rw [if_neg (by decide)]; exact hgw
  | colons => exact absurd hp id

end Ferret.QP
