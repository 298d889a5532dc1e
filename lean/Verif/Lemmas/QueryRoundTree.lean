import Verif.Lemmas.QueryRoundPhrase

/-! Reading the texts of queries back: clauses and boolean queries. -/

namespace Ferret.QRound

open Ferret.Spec
open Ferret.QP

variable {cfg : Cfg} {qlen : Nat} {N : Type} {nm : Nums N} {R : ReadNum N} {df : Fld}

/-! ### Putting pieces together -/

theorem signOf (o : Occ) : ∃ s : QSign, s.occ = o ∧ (o ≠ .should → s ≠ .none) := by
  cases o
  · exact ⟨.none, rfl, fun h => absurd rfl h⟩
  · exact ⟨.req, rfl, by simp⟩
  · exact ⟨.not, rfl, by simp⟩

theorem Piece.sign {x : List Char} {ts : List QTok} (h : Piece cfg qlen x ts) {o : Occ} {s : QSign} (ho : s.occ = o) :
    Piece cfg qlen (signText o ++ x) (s.written ++ ts) := by
  refine ⟨reads_sign o s ho h.reads, ?_, ?_, ?_, ?_⟩
  all_goals subst ho
  all_goals cases s
  · exact h.clear
  · exact clear_cons (by decide) h.clear
  · exact clear_cons (by decide) h.clear
  · exact h.fine
  · exact h.fine.cons (by simp) (by simp) (by simp) (by simp)
  · exact h.fine.cons (by simp) (by simp) (by simp) (by simp)
  · exact h.starts
  · exact ⟨by simp [QSign.written], by simp [QSign.written, Starts]⟩
  · exact ⟨by simp [QSign.written], by simp [QSign.written, Starts]⟩
  · exact h.head
  · exact ⟨'+', x, rfl, by decide⟩
  · exact ⟨'-', x, rfl, by decide⟩

theorem Piece.field {x : List Char} {ts : List QTok} (h : Piece cfg qlen x ts) {f : Fld} (hf : readsPlain cfg.keywords f) :
    Piece cfg qlen (f ++ [':'] ++ x) (.word f :: .sym ':' :: ts) := by
  refine ⟨reads_field hf h.head h.reads, ?_, ?_, ⟨by simp, by simp [Starts]⟩, ?_⟩
  · exact ((plain_clear hf).append (clear_one (by decide))).append h.clear
  · exact (h.fine.cons (by simp) (by simp) (by simp) (by simp)).cons (by intro v hv; rcases hv with hv | hv <;> cases hv; exact hf.2.2.2) (by simp) (by simp) (by simp)
  · obtain ⟨c, r, e, hc⟩ := hf.1
    exact ⟨c, _, by rw [e]; rfl, (ne_of_plain hc).1⟩

theorem Piece.parens {x : List Char} {ts : List QTok} (h : Piece cfg qlen x ts) : Piece cfg qlen ('(' :: x ++ [')']) ([.sym '('] ++ ts ++ [.sym ')']) := by
  refine ⟨?_, clear_paren h.clear, ?_, ⟨by simp, by simp [Starts]⟩, ⟨'(', x ++ [')'], rfl, by decide⟩⟩
  · exact reads_mark (by decide) (by decide) (reads_append h.reads (reads_mark (c := ')') (by decide) (by decide) reads_nil) (Or.inr ⟨')', [], rfl, by decide⟩))
  · exact (h.fine.append (fine_nil.cons (t := .sym ')') (by simp) (by simp) (by simp) (by simp)) (Or.inr (by simp [Starts]))).cons (by simp) (by simp) (by simp) (by simp)

theorem Piece.next {x y : List Char} {ts us : List QTok} (h : Piece cfg qlen x ts) (h' : Piece cfg qlen y us) : Piece cfg qlen (x ++ ' ' :: y) (ts ++ us) :=
  h.tail ⟨reads_blank h'.reads, clear_cons (by decide) h'.clear, h'.fine, Or.inr ⟨' ', y, rfl, by decide⟩⟩ (Or.inr h'.starts.2)

/-- The boost that is written. -/
def boostOf (nm : Nums N) (b : N) : Option QWord := if nm.one b then none else some (nm.text b)

theorem boost_tail {b : N} (h : readsBoost cfg nm R b) : Tail cfg qlen (boostText nm b) (writtenBoost (boostOf nm b)) ∧
    (writtenBoost (boostOf nm b) = [] ∨ Starts (writtenBoost (boostOf nm b))) := by
  unfold readsBoost readsNumber at h
  unfold boostText boostOf
  by_cases hb : nm.one b
  · rw [if_pos hb, if_pos hb]; exact ⟨tail_nil, Or.inl rfl⟩
  · rw [if_neg hb] at h
    rw [if_neg hb, if_neg hb]
    exact ⟨tail_mark (Or.inl rfl) h.1, Or.inr (by simp [writtenBoost, Starts])⟩

theorem boost_meant {b : N} (h : readsBoost cfg nm R b) {m : Qry} {q : N → TQ N} (h1 : askedFor R m = q R.unit) (h2 : ∀ a c, (q a).withBoost c = q c) :
    askedFor R (boosted (boostOf nm b) m) = q b := by
  unfold readsBoost readsNumber at h
  unfold boostOf
  by_cases hb : nm.one b
  · rw [if_pos hb] at h
    rw [if_pos hb, boosted, h1, h]
  · rw [if_neg hb] at h
    rw [if_neg hb, boosted, askedFor, h1, h2, h.2]

/-! ### Clauses -/

/-- A clause that is read back. -/
def ClauseOk (cfg : Cfg) (qlen : Nat) (nm : Nums N) (R : ReadNum N) (df : Fld) (o : Occ) (q : TQ N) (x : List Char) (C : QClause) (m : Qry) : Prop :=
  Piece cfg qlen (signText o ++ x) C.written ∧ C.apart = true ∧ C.room ≤ 10 + 6 * q.nesting ∧ C.meant (lang cfg) [df] = some (o, m) ∧
    askedFor R m = q ∧ (C.bare = true → endsTilde nm q = true) ∧ (o ≠ .should → C.startsWord = false)

/-- A query that is read back, as a clause and alone. -/
def BackOk (cfg : Cfg) (qlen : Nat) (nm : Nums N) (R : ReadNum N) (order : List (Int × List (List Char)) → List (Int × List (List Char))) (df : Fld) (q : TQ N) : Prop :=
  ReadsBack cfg nm R df q →
    (∀ o, ∃ C m, ClauseOk cfg qlen nm R df o q (if q.isBool then '(' :: textOf nm order (some df) q ++ [')'] else textOf nm order (some df) q) C m) ∧
    (∃ (T : QClauses) (m : Qry), Piece cfg qlen (textOf nm order (some df) q) T.written ∧ T.apart = true ∧ T.room ≤ 12 + 6 * q.nesting ∧
      boolOf (T.meant (lang cfg) [df]) = some m ∧ askedFor R m = q)

theorem fields_one {f : Fld} (h : cfg.anyFields = true ∨ f ∈ cfg.allFields) : (lang cfg).fields [f] = [f] := by
  simp only [QLang.fields, List.foldl_cons, List.foldl_nil]
  rw [if_pos]
  · rfl
  · rcases h with h | h
    · simp [lang, h]
    · simp [lang, h]

/-- Queries without clauses. -/
theorem back_leaf {order : List (Int × List (List Char)) → List (Int × List (List Char))} {f : Fld} {x : List Char} {l : QLeaf} {m : Qry} {q : N → TQ N} {b : N}
    (hp : Piece cfg qlen x l.written) (hm : (lang cfg).leaf [f] l = some m) (hf : readsField cfg df f) (hb : readsBoost cfg nm R b)
    (h1 : askedFor R m = q R.unit) (h2 : ∀ a c, (q a).withBoost c = q c) (ht : textOf nm order (some df) (q b) = fieldText (some df) f ++ x ++ boostText nm b)
    (hn : (q b).isBool = false) (hbare : (QExp.leaf l).bare = true → nm.one b = true → endsTilde nm (q b) = true) :
    (∀ o, ∃ C m, ClauseOk cfg qlen nm R df o (q b) (if (q b).isBool then '(' :: textOf nm order (some df) (q b) ++ [')'] else textOf nm order (some df) (q b)) C m) ∧
    (∃ (T : QClauses) (m : Qry), Piece cfg qlen (textOf nm order (some df) (q b)) T.written ∧ T.apart = true ∧ T.room ≤ 12 + 6 * (q b).nesting ∧
      boolOf (T.meant (lang cfg) [df]) = some m ∧ askedFor R m = q b) := by
  have hbn : (boostOf nm b).isNone = true → nm.one b = true := by
    unfold boostOf
    split
    · intro _; assumption
    · intro h; simp at h
  have hE : ∃ e : QExp, Piece cfg qlen (fieldText (some df) f ++ x) e.written ∧ e.apart = true ∧ e.room ≤ 9 ∧ e.meant (lang cfg) [df] = some m ∧ (e.bare = true → (QExp.leaf l).bare = true) := by
    by_cases he : f = df
    · subst he
      refine ⟨.leaf l, ?_, rfl, ?_, hm, id⟩
      · rw [fieldText, if_pos rfl]; exact hp
      · rw [QExp.room]; omega
    · rcases hf with hf | hf
      · exact absurd hf he
      · refine ⟨.within f [] (.leaf l), ?_, rfl, ?_, ?_, id⟩
        · rw [fieldText, if_neg (by intro e; cases e; exact he rfl)]
          exact hp.field hf.1
        · simp only [QExp.room]; omega
        · simp only [QExp.meant, fields_one hf.2]; exact hm
  obtain ⟨e, e1, e2, e3, e4, e5⟩ := hE
  have hall := e1.tail (boost_tail (qlen := qlen) hb).1 (boost_tail (qlen := qlen) hb).2
  rw [← ht] at hall
  have hC : ∀ o, ∃ C m, ClauseOk cfg qlen nm R df o (q b) (textOf nm order (some df) (q b)) C m := by
    intro o
    obtain ⟨s, ho, hs⟩ := signOf o
    refine ⟨.mk s e (boostOf nm b), boosted (boostOf nm b) m, ?_, ?_, ?_, ?_, boost_meant hb h1 h2, ?_, ?_⟩
    · have := hall.sign ho
      rw [QClause.written, List.append_assoc]
      exact this
    · exact e2
    · rw [QClause.room]; omega
    · rw [QClause.meant, e4, ho]; rfl
    · intro h
      rw [QClause.bare, Bool.and_eq_true] at h
      exact hbare (e5 h.2) (hbn h.1)
    · intro h
      cases s
      · exact absurd rfl (hs h)
      · rfl
      · rfl
  refine ⟨by rw [hn]; exact hC, ?_⟩
  obtain ⟨C, m', c1, c2, c3, c4, c5, -, -⟩ := hC .should
  refine ⟨.one C, m', c1, c2, ?_, ?_, c5⟩
  · rw [QClauses.room]; omega
  · rw [QClauses.meant, c4]; rfl

/-! ### Boolean queries -/

/-- Clauses that are read back: behind others, and alone. -/
def BackAllOk (cfg : Cfg) (qlen : Nat) (nm : Nums N) (R : ReadNum N) (order : List (Int × List (List Char)) → List (Int × List (List Char))) (df : Fld) (cs : TClauses N) : Prop :=
  ∀ tilde, ReadsBackAll cfg nm R df tilde cs →
    (∀ (T0 : QClauses) (x0 : List Char) (K : Nat), Piece cfg qlen x0 T0.written → T0.apart = true → T0.room ≤ 12 + 6 * K → (T0.bare = true → tilde = true) →
      ∃ (T : QClauses) (ms : List (Occ × Qry)), Piece cfg qlen (x0 ++ (clausesText nm order (some df) cs).flatMap ([' '] ++ ·)) T.written ∧ T.apart = true ∧ T.room ≤ 12 + 6 * max K cs.nesting ∧
        T.meant (lang cfg) [df] = T0.meant (lang cfg) [df] ++ ms ∧ askedForAll R ms = cs) ∧
    (cs ≠ .nil → ∃ (T : QClauses), Piece cfg qlen (joinedBy [' '] (clausesText nm order (some df) cs)) T.written ∧ T.apart = true ∧ T.room ≤ 12 + 6 * cs.nesting ∧
      askedForAll R (T.meant (lang cfg) [df]) = cs)

theorem back_nil {order : List (Int × List (List Char)) → List (Int × List (List Char))} : BackAllOk cfg qlen nm R order df .nil := by
  intro tilde _
  refine ⟨?_, fun h => absurd rfl h⟩
  intro T0 x0 K h1 h2 h3 _
  exact ⟨T0, [], by rw [clausesText]; simpa using h1, h2, by rw [TClauses.nesting]; omega, by simp, by rw [askedForAll]⟩

theorem back_cons (hor : cfg.orDefault = true) {order : List (Int × List (List Char)) → List (Int × List (List Char))} (o : Occ) (q : TQ N) (cs : TClauses N)
    (ih : BackOk cfg qlen nm R order df q) (ih' : BackAllOk cfg qlen nm R order df cs) : BackAllOk cfg qlen nm R order df (.cons o q cs) := by
  intro tilde hr
  rw [ReadsBackAll] at hr
  obtain ⟨r1, r2, r3⟩ := hr
  obtain ⟨C, m, c1, c2, c3, c4, c5, c6, c7⟩ := (ih r1).1 o
  constructor
  · intro T0 x0 K h1 h2 h3 h4
    have hap : (QClauses.more T0 .next C).apart = true := by
      rw [QClauses.apart, h2, c2]
      cases hb : T0.bare with
      | false => rfl
      | true => rw [c7 (r2 (h4 hb))]; rfl
    have hwr : (QClauses.more T0 .next C).written = T0.written ++ C.written := by
      rw [QClauses.written]; simp [QJoin.written]
    have hmean : (QClauses.more T0 .next C).meant (lang cfg) [df] = T0.meant (lang cfg) [df] ++ [(o, m)] := by
      rw [QClauses.meant, c4, QLang.join]
      show (if cfg.orDefault = true then _ else _) = _
      rw [if_pos hor]
    obtain ⟨T, ms, t1, t2, t3, t4, t5⟩ := (ih' _ r3).1 (.more T0 .next C) _ (max K q.nesting) (by rw [hwr]; exact h1.next c1) hap
      (by rw [QClauses.room]; omega) c6
    refine ⟨T, (o, m) :: ms, ?_, t2, ?_, ?_, ?_⟩
    · rw [clausesText, List.flatMap_cons]
      simpa using t1
    · rw [TClauses.nesting]; omega
    · rw [t4, hmean]; simp
    · rw [askedForAll, c5, t5]
  · intro _
    obtain ⟨T, ms, t1, t2, t3, t4, t5⟩ := (ih' _ r3).1 (.one C) _ q.nesting c1 c2 (by rw [QClauses.room]; omega) c6
    refine ⟨T, ?_, t2, ?_, ?_⟩
    · rw [clausesText, QText.joinedBy_cons]
      exact t1
    · rw [TClauses.nesting]; omega
    · rw [t4, QClauses.meant, c4]
      show askedForAll R ((o, m) :: ms) = _
      rw [askedForAll, c5, t5]

theorem boolOf_two {ms : List (Occ × Qry)} {o o' : Occ} {q q' : TQ N} {cs : TClauses N} (h : askedForAll R ms = .cons o q (.cons o' q' cs)) :
    boolOf ms = some (.bool ms false) := by
  match ms with
  | [] => rw [askedForAll] at h; cases h
  | [x] =>
    obtain ⟨a, b⟩ := x
    rw [askedForAll, askedForAll] at h; cases h
  | x :: y :: r =>
    obtain ⟨a, b⟩ := x
    cases a <;> rfl

theorem back_bool {order : List (Int × List (List Char)) → List (Int × List (List Char))} (cs : TClauses N) (b : N)
    (ih : BackAllOk cfg qlen nm R order df cs) : BackOk cfg qlen nm R order df (.bool cs b) := by
  intro hr
  rw [ReadsBack] at hr
  obtain ⟨r1, ⟨o1, q1, o2, q2, cs', rfl⟩, r3⟩ := hr
  obtain ⟨T, t1, t2, t3, t4⟩ := (ih _ r1).2 (by simp)
  have hbo := boolOf_two t4
  have hask : askedFor R (.bool (T.meant (lang cfg) [df]) false) = .bool (.cons o1 q1 (.cons o2 q2 cs')) R.unit := by rw [askedFor, t4]
  have hbm := boost_meant (nm := nm) (m := .bool (T.meant (lang cfg) [df]) false) (q := fun b => TQ.bool (.cons o1 q1 (.cons o2 q2 cs')) b) r3 hask (fun _ _ => rfl)
  have htail := boost_tail (qlen := qlen) r3
  by_cases hb : nm.one b = true
  · have etext : textOf nm order (some df) (.bool (.cons o1 q1 (.cons o2 q2 cs')) b) = joinedBy [' '] (clausesText nm order (some df) (.cons o1 q1 (.cons o2 q2 cs'))) := by
      rw [textOf, inParens, if_pos hb]
    have eb : boostOf nm b = none := by rw [boostOf, if_pos hb]
    rw [eb] at hbm
    rw [etext]
    refine ⟨?_, T, _, t1, t2, ?_, hbo, hbm⟩
    · intro o
      obtain ⟨s, ho, hs⟩ := signOf o
      refine ⟨.mk s (.parens T) none, _, ?_, t2, ?_, ?_, hbm, ?_, ?_⟩
      · rw [QClause.written, QExp.written, writtenBoost, List.append_nil]
        exact t1.parens.sign ho
      · rw [QClause.room, QExp.room, TQ.nesting]; omega
      · rw [QClause.meant, QExp.meant, hbo, ho]; rfl
      · intro h; rw [QClause.bare, QExp.bare] at h; simp at h
      · intro h; cases s
        · exact absurd rfl (hs h)
        · rfl
        · rfl
    · rw [TQ.nesting]; omega
  · have etext : textOf nm order (some df) (.bool (.cons o1 q1 (.cons o2 q2 cs')) b) =
        ('(' :: joinedBy [' '] (clausesText nm order (some df) (.cons o1 q1 (.cons o2 q2 cs'))) ++ [')']) ++ boostText nm b := by
      rw [textOf, inParens, if_neg hb, boostText, if_neg hb]
      simp
    have hone : Piece cfg qlen (('(' :: joinedBy [' '] (clausesText nm order (some df) (.cons o1 q1 (.cons o2 q2 cs'))) ++ [')']) ++ boostText nm b)
        (QClauses.one (.mk .none (.parens T) (boostOf nm b))).written := by
      rw [QClauses.written, QClause.written, QExp.written]
      exact t1.parens.tail htail.1 htail.2
    have hmean : boolOf ((QClauses.one (.mk .none (.parens T) (boostOf nm b))).meant (lang cfg) [df]) = some (boosted (boostOf nm b) (.bool (T.meant (lang cfg) [df]) false)) := by
      rw [QClauses.meant, QClause.meant, QExp.meant, hbo]; rfl
    rw [etext]
    refine ⟨?_, .one (.mk .none (.parens T) (boostOf nm b)), _, hone, t2, ?_, hmean, hbm⟩
    · intro o
      obtain ⟨s, ho, hs⟩ := signOf o
      refine ⟨.mk s (.parens (.one (.mk .none (.parens T) (boostOf nm b)))) none, _, ?_, t2, ?_, ?_, hbm, ?_, ?_⟩
      · rw [QClause.written, QExp.written, writtenBoost, List.append_nil]
        exact hone.parens.sign ho
      · simp only [QClause.room, QExp.room, QClauses.room, TQ.nesting]; omega
      · rw [QClause.meant, QExp.meant, hmean, ho]; rfl
      · intro h; rw [QClause.bare, QExp.bare] at h; simp at h
      · intro h; cases s
        · exact absurd rfl (hs h)
        · rfl
        · rfl
    · simp only [QClause.room, QExp.room, QClauses.room, TQ.nesting]; omega

/-! ### All queries -/

section
variable {order : List (Int × List (List Char)) → List (Int × List (List Char))}

theorem back_term (f : Fld) (w : List Char) (b : N) : BackOk cfg qlen nm R order df (.term f w b) := by
  intro h
  rw [ReadsBack] at h
  obtain ⟨h1, ⟨h2, i, h3, -⟩, h4⟩ := h
  exact back_leaf (q := fun b => .term f w b) (l := .word w) (piece_word h2) ((Props.c78_word cfg f w).2.1 w i h3) h1 h4 rfl (fun _ _ => rfl)
    (by rw [textOf]) rfl (by intro h; cases h)

theorem pattern_leaf {f : Fld} {w : QWord} (h1 : readsPattern w) (h2 : staysLower cfg f w) : (lang cfg).leaf [f] (.wild w) = some (patternQ f w) := by
  have : leafQ cfg [f] (.wild w) = .ok (some (patternQ f (seen cfg f w))) := flds_single (getWildQ_eq (cfg := cfg) (f := f) h1.2.2.2)
  rw [lang_leaf this]
  have e : seen cfg f w = w := h2
  rw [e]

theorem back_pre (f : Fld) (w : List Char) (b : N) : BackOk cfg qlen nm R order df (.pre f w b) := by
  intro h
  rw [ReadsBack] at h
  obtain ⟨h1, h2, h3, h4, h5, h6⟩ := h
  have hq : patternQ f (w ++ ['*']) = .pre f w := by
    unfold patternQ
    rw [if_neg, if_pos]
    · simp
    · refine ⟨by simp, ?_⟩
      simp only [List.dropLast_concat, Bool.not_eq_true, List.any_eq_false]
      intro c hc
      simp [h4 c hc]
    · intro e
      cases w with
      | nil => exact h2 rfl
      | cons c w => simp at e
  exact back_leaf (q := fun b => .pre f w b) (l := .wild (w ++ ['*'])) (piece_pattern h3) ((pattern_leaf h3 h5).trans (by rw [hq])) h1 h6 rfl (fun _ _ => rfl)
    (by rw [textOf]; simp) rfl (by intro h; cases h)

theorem back_wild (f : Fld) (w : List Char) (b : N) : BackOk cfg qlen nm R order df (.wild f w b) := by
  intro h
  rw [ReadsBack] at h
  obtain ⟨h1, h3, h5, h4, h6⟩ := h
  have hq : patternQ f w = .wild f w := by
    unfold patternQ
    rw [if_neg, if_neg]
    · rintro ⟨e1, e2⟩
      refine h4 ⟨w.dropLast, ?_, ?_⟩
      · rcases List.eq_nil_or_concat w with e | ⟨p, c, e⟩
        · rw [e] at e1; simp at e1
        · rw [e] at e1 ⊢; simp at e1 ⊢; exact e1
      · intro c hc
        simp only [Bool.not_eq_true, List.any_eq_false] at e2
        have := e2 c hc
        simpa using this
    · intro e
      exact h4 ⟨[], e, by simp⟩
  exact back_leaf (q := fun b => .wild f w b) (l := .wild w) (piece_pattern h3) ((pattern_leaf h3 h5).trans (by rw [hq])) h1 h6 rfl (fun _ _ => rfl)
    (by rw [textOf]) rfl (by intro h; cases h)

theorem back_all (b : N) : BackOk cfg qlen nm R order df (.all b) := by
  intro h
  rw [ReadsBack] at h
  have h3 : readsPattern ['*'] := ⟨⟨'*', [], rfl, Or.inr (Or.inl rfl)⟩, by decide, by decide, by decide⟩
  exact back_leaf (q := fun b => .all b) (f := df) (l := .wild ['*']) (piece_pattern h3) (pattern_leaf h3 h.1) (Or.inl rfl) h.2 rfl (fun _ _ => rfl)
    (by rw [textOf, fieldText, if_pos rfl]; rfl) rfl (by intro h; cases h)

theorem back_fuzzy (f : Fld) (w : List Char) (sim b : N) : BackOk cfg qlen nm R order df (.fuzzy f w sim b) := by
  intro h
  rw [ReadsBack] at h
  obtain ⟨h1, ⟨h2, i, h3, -⟩, h5, h4⟩ := h
  unfold readsNumber at h5
  by_cases hs : nm.half sim = true
  · rw [if_pos hs] at h5
    have hp : Piece cfg qlen (w ++ ['~']) (QLeaf.fuzzy w none).written := piece_fuzzy (us := []) h2 tail_tilde
    exact back_leaf (q := fun b => .fuzzy f w sim b) (l := .fuzzy w none) hp ((Props.c78_fuzzy cfg f w none).2 w i [] h3) h1 h4 (by rw [askedFor, h5]) (fun _ _ => rfl)
      (by rw [textOf, if_pos hs]; simp) rfl (by intro _ hb; simp [endsTilde, hs, hb])
  · rw [if_neg hs] at h5
    have hp : Piece cfg qlen (w ++ '~' :: nm.text sim) (QLeaf.fuzzy w (some (nm.text sim))).written := piece_fuzzy (us := [.word (nm.text sim)]) h2 (tail_mark (Or.inr rfl) h5.1)
    exact back_leaf (q := fun b => .fuzzy f w sim b) (l := .fuzzy w (some (nm.text sim))) hp ((Props.c78_fuzzy cfg f w _).2 w i [] h3) h1 h4 (by simp only [askedFor, h5.2]) (fun _ _ => rfl)
      (by rw [textOf, if_neg hs]; simp) rfl (by intro h; cases h)

theorem back_range (f : Fld) (lo hi : Option (List Char)) (i j : Bool) (b : N) : BackOk cfg qlen nm R order df (.range f lo hi i j b) := by
  intro h
  rw [ReadsBack] at h
  obtain ⟨h1, h2, h3, h4⟩ := h
  have hlook : ∀ w : QWord, staysLower cfg f w → seen cfg f w = w := fun w h => h
  cases lo with
  | none =>
    cases hi with
    | none => exact h3.elim
    | some y =>
      simp only [readsRange] at h3
      subst h3
      obtain ⟨y1, y2⟩ := h2 y (Or.inr rfl)
      have hm := (Props.c78_range cfg f y y false j y1.2.2.2 y1.2.2.2 (seen cfg f) (fun _ => rfl)).2.1 true
      rw [hlook y y2] at hm
      exact back_leaf (q := fun b => .range f none (some y) false j b) (l := .below y j true) (piece_below y1 j) hm h1 h4 rfl (fun _ _ => rfl)
        (by rw [textOf, rangeText]) rfl (by intro h; cases h)
  | some x =>
    obtain ⟨x1, x2⟩ := h2 x (Or.inl rfl)
    cases hi with
    | none =>
      simp only [readsRange] at h3
      subst h3
      have hm := (Props.c78_range cfg f x x i false x1.2.2.2 x1.2.2.2 (seen cfg f) (fun _ => rfl)).2.2 true
      rw [hlook x x2] at hm
      exact back_leaf (q := fun b => .range f (some x) none i false b) (l := .above x i true) (piece_above x1 i) hm h1 h4 rfl (fun _ _ => rfl)
        (by rw [textOf, rangeText]) rfl (by intro h; cases h)
    | some y =>
      simp only [readsRange] at h3
      obtain ⟨y1, y2⟩ := h2 y (Or.inr rfl)
      have hm := (Props.c78_range cfg f x y i j x1.2.2.2 y1.2.2.2 (seen cfg f) (fun _ => rfl)).1
      rw [hlook x x2, hlook y y2] at hm
      exact back_leaf (q := fun b => .range f (some x) (some y) i j b) (l := .between x y i j) (piece_between x1 y1 i j h3) (hm h3.1) h1 h4 rfl (fun _ _ => rfl)
        (by rw [textOf, rangeText]) rfl (by intro h; cases h)

theorem back_phrase (ho : SortsPlaces order) (f : Fld) (ps : List (Int × List (List Char))) (slop : Int) (b : N) : BackOk cfg qlen nm R order df (.phrase f ps slop b) := by
  intro h
  rw [ReadsBack] at h
  obtain ⟨h1, h2, h3, h4, h5, h6, h7, h8⟩ := h
  have hord := sorts_same ho h3
  match ps, h2, h3, h4, h5, hord with
  | (p, ws) :: q :: ps, _, h3, h4, h5, hord =>
    have hp0 : p = 0 := by simpa using h4
    subst hp0
    cases ws with
    | nil => exact absurd rfl (h5 (0, []) (by simp)).1
    | cons w ws =>
      have hpos : ∀ x ∈ ((0 : Int), w :: ws) :: q :: ps, (-1 : Int) < x.1 := by
        intro x hx
        rcases List.mem_cons.1 hx with rfl | hx
        · show (-1 : Int) < 0; omega
        · have := (List.pairwise_cons.1 h3).1 x hx
          have : (0 : Int) < x.1 := this
          omega
      have hr : Rising cfg (-1) ((0, w :: ws) :: q :: ps) :=
        rising_of hpos h3 (fun x hx => ⟨(h5 x hx).1, fun v hv => ⟨((h5 x hx).2 v hv).1.1, ((h5 x hx).2 v hv).2⟩⟩)
      obtain ⟨qs, m1, m2⟩ := phrase_meant (f := f) h6 h7 hr (fun x hx v hv => ((h5 x hx).2 v hv).1) (by simp)
      exact back_leaf (q := fun b => .phrase f ((0, w :: ws) :: q :: ps) slop b) (phrase_piece h6 h7 hr) m1 h1 h8 (by rw [askedFor, m2]) (fun _ _ => rfl)
        (by rw [textOf, hord, if_neg (by simp)]) rfl (by intro h; rw [phraseLeaf] at h; cases h)

/-- Every query that is read back is. -/
theorem back_ok (hor : cfg.orDefault = true) (ho : SortsPlaces order) (q : TQ N) : BackOk cfg qlen nm R order df q :=
  TQ.rec (motive_1 := BackOk cfg qlen nm R order df) (motive_2 := BackAllOk cfg qlen nm R order df) (motive_3 := fun _ => True) (motive_4 := fun _ => True)
    (fun f w b => back_term f w b)
    (fun f ws b h => by simp only [ReadsBack] at h)
    (fun f ps slop b => back_phrase ho f ps slop b)
    (fun f w b => back_pre f w b)
    (fun f w b => back_wild f w b)
    (fun f w sim b => back_fuzzy f w sim b)
    (fun f lo hi i j b => back_range f lo hi i j b)
    (fun b => back_all b)
    (fun cs b ih => back_bool cs b ih)
    (fun flt b _ h => by simp only [ReadsBack] at h)
    (fun q flt b _ _ h => by simp only [ReadsBack] at h)
    (fun f w h => by simp only [ReadsBack] at h)
    (fun f ws h => by simp only [ReadsBack] at h)
    (fun q last _ h => by simp only [ReadsBack] at h)
    (fun cs _ h => by simp only [ReadsBack] at h)
    (fun cs _ h => by simp only [ReadsBack] at h)
    (fun inc exc _ _ h => by simp only [ReadsBack] at h)
    (fun f w b h => by simp only [ReadsBack] at h)
    back_nil
    (fun o q cs ih ih' => back_cons hor o q cs ih ih')
    trivial
    (fun _ _ _ _ => trivial)
    (fun _ => trivial)
    (fun _ _ _ _ _ => trivial)
    (fun _ _ _ _ _ => trivial)
    (fun _ _ => trivial)
    q

end

end Ferret.QRound
