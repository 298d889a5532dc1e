import Verif.Lemmas.QStack

/-!
Every reduction of the query parser keeps the invariant of its loop.
-/

namespace Ferret.QP
open Ferret.Spec

/-- What is known of the text: its tokens are what the lexer gives, and tame. -/
structure Env (cfg : Cfg) (full : List LexTok) : Prop where
  shaped : ∀ t ∈ full, Shaped t
  noeof : ∀ t ∈ full, t.tok ≠ .eof
  tame : QTame (full.map LexTok.spec)
  low : ∀ c, cfg.lower (cfg.lower c) = cfg.lower c

theorem Env.word {cfg : Cfg} {full : List LexTok} (E : Env cfg full) {t : LexTok} (ht : t ∈ full)
    (hw : t.tok = .word) : t.text.length ≤ 253 ∧ callN t = 1 ∧ t.spec = .word t.text ∧
      ∀ n, tokVal t n = .word ⟨t.text, false, n⟩ := by
  have hs : t.spec = .word t.text := by simp [LexTok.spec, hw]
  have hl := E.tame.short t.text (Or.inl (hs ▸ List.mem_map_of_mem ht))
  have hsh := E.shaped t ht
  have hd : t.dyn = false := by
    cases hd : t.dyn with
    | false => rfl
    | true => have := hsh.dyn hd; simp [maxWordSize] at this; omega
  exact ⟨hl, by simp [callN, hsh.word (Or.inl hw)], hs, fun n => by simp [tokVal, hw, hd]⟩

theorem Env.wild {cfg : Cfg} {full : List LexTok} (E : Env cfg full) {t : LexTok} (ht : t ∈ full)
    (hw : t.tok = .wild) : t.text.length ≤ 253 ∧ callN t = 1 ∧ t.spec = .wild t.text ∧
      ∀ n, tokVal t n = .word ⟨t.text, false, n⟩ := by
  have hs : t.spec = .wild t.text := by simp [LexTok.spec, hw]
  have hl := E.tame.short t.text (Or.inr (hs ▸ List.mem_map_of_mem ht))
  have hsh := E.shaped t ht
  have hd : t.dyn = false := by
    cases hd : t.dyn with
    | false => rfl
    | true => have := hsh.dyn hd; simp [maxWordSize] at this; omega
  exact ⟨hl, by simp [callN, hsh.word (Or.inr hw)], hs, fun n => by simp [tokVal, hw, hd]⟩

theorem Env.sym {cfg : Cfg} {full : List LexTok} (E : Env cfg full) {t : LexTok} (ht : t ∈ full) {c : Char}
    (hc : t.tok = .ch c) : callN t = 0 ∧ t.spec = .sym c := by
  exact ⟨by simp [callN, (E.shaped t ht).sym c hc], by simp [LexTok.spec, hc]⟩

theorem read_ok {now n : Nat} {w : List Char} (h : now ≤ n + 1) :
    (⟨w, false, n⟩ : Word).read now = .ok w := by
  unfold Word.read
  exact if_pos h

/-- The clauses so far, read as a query. -/
theorem getBoolQ_eq (cs : List (Occ × Qry)) : getBoolQ cs = boolOf cs := by
  match cs with
  | [] => rfl
  | [(.mustNot, q)] => rfl
  | [(.must, q)] => rfl
  | [(.should, q)] => rfl
  | _ :: _ :: _ => simp [getBoolQ, boolOf]

theorem demand_eq (c : Occ × Qry) : demand c = demanded c := by
  match c with
  | (.mustNot, q) => rfl
  | (.must, q) => rfl
  | (.should, q) => rfl

theorem addAnd_eq (cs : List (Occ × Qry)) (c : Occ × Qry) : addAnd cs (some c) = andClause cs c := by
  match cs with
  | [] => simp [addAnd, andClause, demand_eq]
  | [c0] => simp [addAnd, andClause, demand_eq]
  | c0 :: c1 :: cs => simp [addAnd, andClause, demand_eq]

theorem join_and (cfg : Cfg) (cs : List (Occ × Qry)) (c : Option (Occ × Qry)) :
    addAnd cs c = (lang cfg).join .and cs c := by
  cases c with
  | none => rfl
  | some c => exact addAnd_eq cs c

theorem join_or (cfg : Cfg) (cs : List (Occ × Qry)) (c : Option (Occ × Qry)) :
    addOr cs c = (lang cfg).join .or cs c := by
  cases c with
  | none => simp [addOr, QLang.join]
  | some c => rfl

theorem join_next (cfg : Cfg) (cs : List (Occ × Qry)) (c : Option (Occ × Qry)) :
    addDefault cfg cs c = (lang cfg).join .next cs c := by
  unfold addDefault
  cases c with
  | none => simp [addOr, QLang.join, addAnd]
  | some c =>
    show (if cfg.orDefault = true then addOr cs (some c) else addAnd cs (some c)) =
      if cfg.orDefault = true then cs ++ [c] else andClause cs c
    rw [addAnd_eq]
    rfl

theorem getBoolCls_eq (q : Option Qry) (b : Option QWord) (s : QSign) :
    getBoolCls (q.map (boosted b)) s.occ = q.map (fun q => (s.occ, boosted b q)) := by
  cases q <;> rfl

/-! ### Actions that read words -/

theorem act12 {cfg : Cfg} {qlen : Nat} {p : PS} {q : Option Qry} {x : Val} {w : Word} {b : List Char}
    (h : w.read p.calls = .ok b) : act cfg qlen 12 [.q q, x, .word w] p = .ok (.q (q.map (.boost b)), p) := by
  show (w.read p.calls >>= fun b => pure (Val.q (q.map (.boost b)), p)) = _
  rw [h]; rfl

theorem act20 {cfg : Cfg} {qlen : Nat} {p : PS} {q : Option Qry} {w : Word} {t : List Char}
    (h : w.read p.calls = .ok t) (hq : leafQ cfg (cur p.fields) (.word t) = .ok q) :
    act cfg qlen 20 [.word w] p = .ok (.q q, p) := by
  show (w.read p.calls >>= fun t => leafQ cfg (cur p.fields) (.word t) >>= fun q => pure (Val.q q, p)) = _
  rw [h, Res.ok_bind, hq]; rfl

theorem act21 {cfg : Cfg} {qlen : Nat} {p : PS} {q : Option Qry} {x : Val} {w w' : Word} {t t' : List Char}
    (h : w.read p.calls = .ok t) (h' : w'.read p.calls = .ok t')
    (hq : leafQ cfg (cur p.fields) (.fuzzy t (some t')) = .ok q) :
    act cfg qlen 21 [.word w, x, .word w'] p = .ok (.q q, p) := by
  show (w.read p.calls >>= fun t => w'.read p.calls >>= fun t' =>
    leafQ cfg (cur p.fields) (.fuzzy t (some t')) >>= fun q => pure (Val.q q, p)) = _
  rw [h, Res.ok_bind, h', Res.ok_bind, hq]; rfl

theorem act22 {cfg : Cfg} {qlen : Nat} {p : PS} {q : Option Qry} {x : Val} {w : Word} {t : List Char}
    (h : w.read p.calls = .ok t) (hq : leafQ cfg (cur p.fields) (.fuzzy t none) = .ok q) :
    act cfg qlen 22 [.word w, x] p = .ok (.q q, p) := by
  show (w.read p.calls >>= fun t =>
    leafQ cfg (cur p.fields) (.fuzzy t none) >>= fun q => pure (Val.q q, p)) = _
  rw [h, Res.ok_bind, hq]; rfl

theorem act23 {cfg : Cfg} {qlen : Nat} {p : PS} {q : Option Qry} {n : Nat} {t : List Char}
    (h : (⟨t, false, n⟩ : Word).read p.calls = .ok t) (hq : leafQ cfg (cur p.fields) (.wild t) = .ok q) :
    act cfg qlen 23 [.word ⟨t, false, n⟩] p = .ok (.q q, p) := by
  show ((⟨t, false, n⟩ : Word).read p.calls >>= fun t =>
    leafQ cfg (cur p.fields) (.wild t) >>= fun q => pure (Val.q q, p)) = _
  rw [h, Res.ok_bind, hq]; rfl

theorem act29 {cfg : Cfg} {qlen : Nat} {p : PS} {w : Word} {t : List Char} (h : w.read p.calls = .ok t) :
    act cfg qlen 29 [.word w] p = .ok (.none, { p with fields := addField cfg t [] :: p.fields }) := by
  show (w.read p.calls >>= fun t => pure (Val.none, { p with fields := addField cfg t [] :: p.fields })) = _
  rw [h]; rfl

theorem act30 {cfg : Cfg} {qlen : Nat} {p : PS} {x y : Val} {w : Word} {t : List Char}
    (h : w.read p.calls = .ok t) : act cfg qlen 30 [x, y, .word w] p =
      .ok (.none, { p with fields := addField cfg t (cur p.fields) :: p.fields.tail }) := by
  show (w.read p.calls >>= fun t =>
    pure (Val.none, { p with fields := addField cfg t (cur p.fields) :: p.fields.tail })) = _
  rw [h]; rfl

theorem act31 {cfg : Cfg} {qlen : Nat} {p : PS} {q : Option Qry} {x y : Val} {ph : Ph} {first : Option QWord}
    {spots : List QSpot} (hp : phraseOf first spots = .ok ph)
    (hq : leafQ cfg (cur p.fields) (.phrase first spots none) = .ok q) :
    act cfg qlen 31 [x, .phrase ph, y] p = .ok (.q q, p) := by
  simp only [leafQ, hp, Res.ok_bind] at hq
  show (flds (cur p.fields) (fun f a => getPhraseQuery cfg f a none) ph >>= fun q => pure (Val.q q, p)) = _
  rw [hq]; rfl

theorem act32 {cfg : Cfg} {qlen : Nat} {p : PS} {q : Option Qry} {x y z : Val} {w : Word} {t : List Char}
    {ph : Ph} {first : Option QWord} {spots : List QSpot} (h : w.read p.calls = .ok t)
    (hp : phraseOf first spots = .ok ph)
    (hq : leafQ cfg (cur p.fields) (.phrase first spots (some t)) = .ok q) :
    act cfg qlen 32 [x, .phrase ph, y, z, .word w] p = .ok (.q q, p) := by
  simp only [leafQ, hp, Res.ok_bind] at hq
  show (w.read p.calls >>= fun t =>
    flds (cur p.fields) (fun f a => getPhraseQuery cfg f a (some t)) ph >>= fun q => pure (Val.q q, p)) = _
  rw [h, Res.ok_bind, hq]; rfl

theorem act35 {cfg : Cfg} {qlen : Nat} {p : PS} {w : Word} {t : List Char} (h : w.read p.calls = .ok t) :
    act cfg qlen 35 [.word w] p = .ok (.phrase (phFirst (some t)), p) := by
  show (w.read p.calls >>= fun t => pure (Val.phrase (phFirst (some t)), p)) = _
  rw [h]; rfl

theorem act37 {cfg : Cfg} {qlen : Nat} {p : PS} {ph : Ph} {w : Word} {t : List Char}
    (h : w.read p.calls = .ok t) :
    act cfg qlen 37 [.phrase ph, .word w] p = .ok (.phrase (phAdd ph (some t)), p) := by
  show (w.read p.calls >>= fun t => pure (Val.phrase (phAdd ph (some t)), p)) = _
  rw [h]; rfl

theorem act39 {cfg : Cfg} {qlen : Nat} {p : PS} {ph ph' : Ph} {x : Val} {w : Word} {t : List Char}
    (h : w.read p.calls = .ok t) (hp : phMulti ph t = .ok ph') :
    act cfg qlen 39 [.phrase ph, x, .word w] p = .ok (.phrase ph', p) := by
  show (w.read p.calls >>= fun t => phMulti ph t >>= fun ph => pure (Val.phrase ph, p)) = _
  rw [h, Res.ok_bind, hp]; rfl

theorem boundOk {w : QWord} (h : w.length ≤ 253) : BoundOk (some (w, false)) :=
  fun _ _ e => by cases e; exact ⟨rfl, h⟩

theorem boundOk_none : BoundOk none := fun _ _ e => by cases e

theorem rangeAct2 {cfg : Cfg} {qlen : Nat} {p : PS} {n n' : Nat} {t t' : QWord} {incLo incHi : Bool}
    (h : (⟨t, false, n⟩ : Word).read p.calls = .ok t) (h' : (⟨t', false, n'⟩ : Word).read p.calls = .ok t')
    (hl : t.length ≤ 253) (hl' : t'.length ≤ 253) :
    rangeAct cfg qlen p (some ⟨t, false, n⟩) (some ⟨t', false, n'⟩) incLo incHi =
      (leafQ cfg (cur p.fields) (.between t t' incLo incHi) >>= fun q => pure (Val.q q, p)) := by
  simp only [leafQ]
  rw [← rangeIn_qlen qlen (boundOk hl) (boundOk hl')]
  unfold rangeAct
  simp only [h, h', Res.ok_bind, Res.pure_eq]
  rfl

theorem rangeActLo {cfg : Cfg} {qlen : Nat} {p : PS} {n : Nat} {t : QWord} {incLo : Bool} (br : Bool)
    (h : (⟨t, false, n⟩ : Word).read p.calls = .ok t) (hl : t.length ≤ 253) :
    rangeAct cfg qlen p (some ⟨t, false, n⟩) none incLo false =
      (leafQ cfg (cur p.fields) (.above t incLo br) >>= fun q => pure (Val.q q, p)) := by
  simp only [leafQ]
  rw [← rangeIn_qlen qlen (boundOk hl) boundOk_none]
  unfold rangeAct
  simp only [h, Res.ok_bind, Res.pure_eq]
  rfl

theorem rangeActHi {cfg : Cfg} {qlen : Nat} {p : PS} {n : Nat} {t : QWord} {incHi : Bool} (br : Bool)
    (h : (⟨t, false, n⟩ : Word).read p.calls = .ok t) (hl : t.length ≤ 253) :
    rangeAct cfg qlen p none (some ⟨t, false, n⟩) false incHi =
      (leafQ cfg (cur p.fields) (.below t incHi br) >>= fun q => pure (Val.q q, p)) := by
  simp only [leafQ]
  rw [← rangeIn_qlen qlen boundOk_none (boundOk hl)]
  unfold rangeAct
  simp only [h, Res.ok_bind, Res.pure_eq]
  rfl

theorem leafQ_above {cfg : Cfg} {F : List Fld} {t : QWord} {inc : Bool} (br : Bool) (h : t.length ≤ 253) :
    ∃ q, leafQ cfg F (.above t inc br) = .ok q :=
  rangeIn_half (boundOk h) boundOk_none (Or.inr ⟨rfl, rfl, rfl⟩)

theorem leafQ_below {cfg : Cfg} {F : List Fld} {t : QWord} {inc : Bool} (br : Bool) (h : t.length ≤ 253) :
    ∃ q, leafQ cfg F (.below t inc br) = .ok q :=
  rangeIn_half boundOk_none (boundOk h) (Or.inl ⟨rfl, rfl, rfl⟩)

/-! ### Reductions -/

section
variable {cfg : Cfg} {qlen : Nat} {full : List LexTok} {p : PS} {ys las zs : List LexTok} {v : Val}
  {st : List (Nat × Val)}

theorem red2 (hi : Inv cfg qlen full p ys las zs) (hst : p.stack = (0, v) :: st) :
    RedGood cfg qlen full p las zs 2 := by
  have h := hi.stk
  rw [hst] at h
  exact reduced hi [] (ys0 := ys) (ys1 := []) (F' := p.fields) (v := .q none) (res := none)
    hst h (by simp) rfl rfl (by decide) rfl ⟨rfl, Or.inl ⟨rfl, rfl⟩⟩ (by decide) [] rfl 3 (by decide) (by decide)
    (fun _ => rfl)

theorem red3 (hi : Inv cfg qlen full p ys las zs) (hst : p.stack = (13, v) :: st) :
    RedGood cfg qlen full p las zs 3 := by
  have h := hi.stk
  rw [hst] at h
  obtain ⟨s0, v0, st0, ys0, ys1, F0, rfl, hp, hk, hys, hsem⟩ := peel h (by decide)
  obtain ⟨rfl, T, hT, rfl⟩ := hsem
  exact reduced hi [_] (F' := p.fields) (v := .q _) (res := _) hst hk hys rfl rfl (by decide) rfl
    ⟨rfl, Or.inr ⟨T, hT, by rw [← getBoolQ_eq]⟩⟩ (goto_of hp (by decide)) [13] rfl 0 (Nat.zero_le _) (by decide)
    (fun _ => rfl)

theorem red4 (hi : Inv cfg qlen full p ys las zs) (hst : p.stack = (14, v) :: st) :
    RedGood cfg qlen full p las zs 4 := by
  have h := hi.stk
  rw [hst] at h
  obtain ⟨s0, v0, st0, ys0, ys1, F0, rfl, hp, hk, hys, hsem⟩ := peel h (by decide)
  obtain ⟨rfl, C, hC, rfl⟩ := hsem
  exact reduced hi [_] (F' := p.fields) (res := p.result) hst hk hys rfl rfl (by decide) rfl
    ⟨rfl, .one C, by simpa [QClauses.written] using hC, by rw [QClauses.meant]; rfl⟩ (goto_of hp (by decide)) [14]
    rfl 0 (Nat.zero_le _) (by decide) (fun h => absurd h (by decide))

theorem addField_eq (g : QWord) (l : List QWord) : addField cfg g l =
    if ((lang cfg).anyField || (lang cfg).known.contains g) && !l.contains g then l ++ [g] else l := by
  have h1 : (lang cfg).anyField = cfg.anyFields := rfl
  have h2 : (lang cfg).known = cfg.allFields := rfl
  rw [h1, h2]
  unfold addField
  cases (cfg.anyFields || cfg.allFields.contains g) <;> cases l.contains g <;> rfl

theorem fields_snoc (f : QWord) (fs : List QWord) (g : QWord) :
    addField cfg g ((lang cfg).fields (f :: fs)) = (lang cfg).fields (f :: (fs ++ [g])) := by
  show _ = List.foldl _ [] (f :: fs ++ [g])
  rw [List.foldl_append]
  exact addField_eq g _

theorem phraseRest_append : ∀ (ss ss' : List QSpot) (ph : Ph),
    phraseRest ph (ss ++ ss') = (phraseRest ph ss >>= fun ph => phraseRest ph ss')
  | [], _, _ => rfl
  | .next w :: ss, ss', ph => phraseRest_append ss ss' _
  | .gap :: ss, ss', ph => phraseRest_append ss ss' _
  | .alt w :: ss, ss', ph => by
    simp only [List.cons_append, phraseRest]
    cases h : phMulti ph w with
    | ok ph' => simp only [Res.ok_bind]; exact phraseRest_append ss ss' ph'
    | raise e => rfl
    | ub => rfl

theorem phraseOf_snoc {first : Option QWord} {spots : List QSpot} {s : QSpot} {ph : Ph}
    (h : phraseOf first spots = .ok ph) : phraseOf first (spots ++ [s]) = phraseRest ph [s] := by
  unfold phraseOf at h ⊢
  rw [phraseRest_append, h]
  rfl

theorem phMulti_ne {ph : Ph} {w : QWord} (h : ph.ps ≠ []) : ∃ ph', phMulti ph w = .ok ph' ∧ ph'.ps ≠ [] := by
  unfold phMulti
  cases e : ph.ps.getLast? with
  | none => exact absurd (List.getLast?_eq_none_iff.1 e) h
  | some x => exact ⟨_, rfl, by simp⟩

theorem phraseRest_ne : ∀ (ss : List QSpot) (ph ph' : Ph), ph.ps ≠ [] → phraseRest ph ss = .ok ph' → ph'.ps ≠ []
  | [], ph, ph', h, e => by cases e; exact h
  | .next w :: ss, ph, ph', h, e => phraseRest_ne ss _ ph' (by simp [phAdd]) e
  | .gap :: ss, ph, ph', h, e => phraseRest_ne ss _ ph' (by simpa [phAdd] using h) e
  | .alt w :: ss, ph, ph', h, e => by
    obtain ⟨ph1, e1, h1⟩ := phMulti_ne (w := w) h
    simp only [phraseRest, e1, Res.ok_bind] at e
    exact phraseRest_ne ss _ ph' h1 e

/-- A phrase without a word yet ends in a gap. -/
theorem phraseRest_gaps : ∀ (ss : List QSpot) (ph ph' : Ph), phraseRest ph ss = .ok ph' → ph'.ps = [] →
    ss = [] ∨ ∃ a, ss.flatMap QSpot.written = a ++ [.sym '>']
  | [], _, _, _, _ => Or.inl rfl
  | .next w :: ss, ph, ph', e, h => absurd h (phraseRest_ne ss _ ph' (by simp [phAdd]) e)
  | .gap :: ss, ph, ph', e, h => by
    rcases phraseRest_gaps ss _ ph' e h with rfl | ⟨a, ha⟩
    · exact Or.inr ⟨[.sym '<'], rfl⟩
    · exact Or.inr ⟨.sym '<' :: .sym '>' :: a, by simp [QSpot.written, ha]⟩
  | .alt w :: ss, ph, ph', e, h => by
    cases e1 : phMulti ph w with
    | ok ph1 =>
      simp only [phraseRest, e1, Res.ok_bind] at e
      refine absurd h (phraseRest_ne ss _ ph' ?_ e)
      unfold phMulti at e1
      split at e1
      · cases e1
      · cases e1; simp
    | raise x => simp [phraseRest, e1] at e
    | ub => simp [phraseRest, e1] at e

theorem phMulti_ok {first : Option QWord} {spots : List QSpot} {ph : Ph} (h : phraseOf first spots = .ok ph)
    (w : QWord) : (∃ ph', phMulti ph w = .ok ph') ∨
      ∃ a, writtenFirst first ++ spots.flatMap QSpot.written = a ++ [.sym '>'] := by
  by_cases hp : ph.ps = []
  · right
    unfold phraseOf at h
    cases first with
    | some w' => exact absurd hp (phraseRest_ne spots _ ph (by simp [phFirst]) h)
    | none =>
      rcases phraseRest_gaps spots _ ph h hp with rfl | ⟨a, ha⟩
      · exact ⟨[.sym '<'], rfl⟩
      · exact ⟨.sym '<' :: .sym '>' :: a, by simp [writtenFirst, ha]⟩
  · obtain ⟨ph', e, -⟩ := phMulti_ne (w := w) hp
    exact Or.inl ⟨ph', e⟩

theorem red24 (hi : Inv cfg qlen full p ys las zs) (hst : p.stack = (66, v) :: st) :
    RedGood cfg qlen full p las zs 24 := by
  have h := hi.stk
  rw [hst] at h
  exact reduced hi [] (ys0 := ys) (ys1 := []) (F' := p.fields.tail) (res := p.result) hst h (by simp) rfl rfl
    (by decide) rfl ⟨rfl, rfl⟩ (by decide) [] rfl 3 (by decide) (by decide) (fun h => absurd h (by decide))

theorem red26 (hi : Inv cfg qlen full p ys las zs) (hst : p.stack = (6, v) :: st) :
    RedGood cfg qlen full p las zs 26 := by
  have h := hi.stk
  rw [hst] at h
  exact reduced hi [] (ys0 := ys) (ys1 := []) (F' := cfg.allFields :: p.fields) (res := p.result) hst h (by simp) rfl
    rfl (by decide) rfl ⟨rfl, rfl⟩ (by decide) [] rfl 3 (by decide) (by decide) (fun h => absurd h (by decide))

theorem red27 (hi : Inv cfg qlen full p ys las zs) (hst : p.stack = (68, v) :: st) :
    RedGood cfg qlen full p las zs 27 := by
  have h := hi.stk
  rw [hst] at h
  exact reduced hi [] (ys0 := ys) (ys1 := []) (F' := p.fields.tail) (res := p.result) hst h (by simp) rfl rfl
    (by decide) rfl ⟨rfl, rfl⟩ (by decide) [] rfl 3 (by decide) (by decide) (fun h => absurd h (by decide))

theorem red5 (E : Env cfg full) (hi : Inv cfg qlen full p ys las zs) (hst : p.stack = (64, v) :: st) :
    RedGood cfg qlen full p las zs 5 := by
  have h := hi.stk
  rw [hst] at h
  obtain ⟨s0, v0, st0, ys0, zs0, F0, rfl, hp0, h0, rfl, hsem0⟩ := peel h (by decide)
  obtain ⟨rfl, C0, hT0, rfl⟩ := hsem0
  obtain rfl : s0 = 41 := by simpa [preds, predsT] using hp0
  obtain ⟨s1, v1, st1, ys1, t1, rfl, hp1, h1, rfl, ht1, rfl⟩ := peelTok h0 (by decide) rfl (by decide)
  have hsp1 : t1.spec = .and := by
    have ht' : t1.tok = .and := ht1
    simp [LexTok.spec, ht']
  have hs2 : s1 ≠ 0 ∧ stos s1 = 28 ∧ (preds s1).all (fun b => gotoOk b 28) = true := by
    have : s1 = 13 ∨ s1 = 27 := by simpa [preds, predsT] using hp1
    rcases this with rfl | rfl <;> decide
  obtain ⟨s2, v2, st2, ys2, zs2, F2, rfl, hp2, h2, rfl, hsem2⟩ := peel h1 hs2.1
  rw [hs2.2.1] at hsem2
  obtain ⟨rfl, T2, hT2, rfl⟩ := hsem2
  exact reduced hi [_, _, _] (F' := p.fields) (res := p.result) (ys1 := zs2 ++ [t1] ++ zs0) hst h2 (by simp) rfl rfl (by decide)
    (rfl) ⟨rfl, .more T2 .and C0, by simp [QClauses.written, QJoin.written, hT0, hT2, hsp1],
      by rw [QClauses.meant, ← join_and]⟩ (goto_of hp2 hs2.2.2) [64, 41, s1] rfl 0
    (Nat.zero_le _) (by simp [hs2.2.1]; decide) (fun h => absurd h (by decide))

theorem red6 (E : Env cfg full) (hi : Inv cfg qlen full p ys las zs) (hst : p.stack = (63, v) :: st) :
    RedGood cfg qlen full p las zs 6 := by
  have h := hi.stk
  rw [hst] at h
  obtain ⟨s0, v0, st0, ys0, zs0, F0, rfl, hp0, h0, rfl, hsem0⟩ := peel h (by decide)
  obtain ⟨rfl, C0, hT0, rfl⟩ := hsem0
  obtain rfl : s0 = 40 := by simpa [preds, predsT] using hp0
  obtain ⟨s1, v1, st1, ys1, t1, rfl, hp1, h1, rfl, ht1, rfl⟩ := peelTok h0 (by decide) rfl (by decide)
  have hsp1 : t1.spec = .or := by
    have ht' : t1.tok = .or := ht1
    simp [LexTok.spec, ht']
  have hs2 : s1 ≠ 0 ∧ stos s1 = 28 ∧ (preds s1).all (fun b => gotoOk b 28) = true := by
    have : s1 = 13 ∨ s1 = 27 := by simpa [preds, predsT] using hp1
    rcases this with rfl | rfl <;> decide
  obtain ⟨s2, v2, st2, ys2, zs2, F2, rfl, hp2, h2, rfl, hsem2⟩ := peel h1 hs2.1
  rw [hs2.2.1] at hsem2
  obtain ⟨rfl, T2, hT2, rfl⟩ := hsem2
  exact reduced hi [_, _, _] (F' := p.fields) (res := p.result) (ys1 := zs2 ++ [t1] ++ zs0) hst h2 (by simp) rfl rfl (by decide)
    (rfl) ⟨rfl, .more T2 .or C0, by simp [QClauses.written, QJoin.written, hT0, hT2, hsp1],
      by rw [QClauses.meant, ← join_or]⟩ (goto_of hp2 hs2.2.2) [63, 40, s1] rfl 0
    (Nat.zero_le _) (by simp [hs2.2.1]; decide) (fun h => absurd h (by decide))

theorem red7 (E : Env cfg full) (hi : Inv cfg qlen full p ys las zs) (hst : p.stack = (42, v) :: st) :
    RedGood cfg qlen full p las zs 7 := by
  have h := hi.stk
  rw [hst] at h
  obtain ⟨s0, v0, st0, ys0, zs0, F0, rfl, hp0, h0, rfl, hsem0⟩ := peel h (by decide)
  obtain ⟨rfl, C0, hT0, rfl⟩ := hsem0
  have hs1 : s0 ≠ 0 ∧ stos s0 = 28 ∧ (preds s0).all (fun b => gotoOk b 28) = true := by
    have : s0 = 13 ∨ s0 = 27 := by simpa [preds, predsT] using hp0
    rcases this with rfl | rfl <;> decide
  obtain ⟨s1, v1, st1, ys1, zs1, F1, rfl, hp1, h1, rfl, hsem1⟩ := peel h0 hs1.1
  rw [hs1.2.1] at hsem1
  obtain ⟨rfl, T1, hT1, rfl⟩ := hsem1
  exact reduced hi [_, _] (F' := p.fields) (res := p.result) (ys1 := zs1 ++ zs0) hst h1 (by simp) rfl rfl (by decide)
    (rfl) ⟨rfl, .more T1 .next C0, by simp [QClauses.written, QJoin.written, hT0, hT1],
      by rw [QClauses.meant, ← join_next]⟩ (goto_of hp1 hs1.2.2) [42, s0] rfl 0
    (Nat.zero_le _) (by simp [hs1.2.1]; decide) (fun h => absurd h (by decide))

theorem red8 (E : Env cfg full) (hi : Inv cfg qlen full p ys las zs) (hst : p.stack = (25, v) :: st) :
    RedGood cfg qlen full p las zs 8 := by
  have h := hi.stk
  rw [hst] at h
  obtain ⟨s0, v0, st0, ys0, zs0, F0, rfl, hp0, h0, rfl, hsem0⟩ := peel h (by decide)
  obtain ⟨rfl, e0, b0, hT0, rfl⟩ := hsem0
  obtain rfl : s0 = 4 := by simpa [preds, predsT] using hp0
  obtain ⟨s1, v1, st1, ys1, t1, rfl, hp1, h1, rfl, ht1, rfl⟩ := peelTok h0 (by decide) rfl (by decide)
  have hsp1 : t1.spec = .req := by
    have ht' : t1.tok = .req := ht1
    simp [LexTok.spec, ht']
  exact reduced hi [_, _] (F' := p.fields) (res := p.result) (ys1 := [t1] ++ zs0) hst h1 (by simp) rfl rfl (by decide)
    (rfl) ⟨rfl, .mk .req e0 b0, by rw [QClause.written, List.append_assoc, hT0]; simp [QSign.written, hsp1],
      by rw [QClause.meant, ← getBoolCls_eq]; rfl⟩ (goto_of hp1 (by decide)) [25, 4] rfl 0
    (Nat.zero_le _) (by decide) (fun h => absurd h (by decide))

theorem red9 (E : Env cfg full) (hi : Inv cfg qlen full p ys las zs) (hst : p.stack = (24, v) :: st) :
    RedGood cfg qlen full p las zs 9 := by
  have h := hi.stk
  rw [hst] at h
  obtain ⟨s0, v0, st0, ys0, zs0, F0, rfl, hp0, h0, rfl, hsem0⟩ := peel h (by decide)
  obtain ⟨rfl, e0, b0, hT0, rfl⟩ := hsem0
  obtain rfl : s0 = 3 := by simpa [preds, predsT] using hp0
  obtain ⟨s1, v1, st1, ys1, t1, rfl, hp1, h1, rfl, ht1, rfl⟩ := peelTok h0 (by decide) rfl (by decide)
  have hsp1 : t1.spec = .not := by
    have ht' : t1.tok = .not := ht1
    simp [LexTok.spec, ht']
  exact reduced hi [_, _] (F' := p.fields) (res := p.result) (ys1 := [t1] ++ zs0) hst h1 (by simp) rfl rfl (by decide)
    (rfl) ⟨rfl, .mk .not e0 b0, by rw [QClause.written, List.append_assoc, hT0]; simp [QSign.written, hsp1],
      by rw [QClause.meant, ← getBoolCls_eq]; rfl⟩ (goto_of hp1 (by decide)) [24, 3] rfl 0
    (Nat.zero_le _) (by decide) (fun h => absurd h (by decide))

theorem red10 (E : Env cfg full) (hi : Inv cfg qlen full p ys las zs) (hst : p.stack = (15, v) :: st) :
    RedGood cfg qlen full p las zs 10 := by
  have h := hi.stk
  rw [hst] at h
  obtain ⟨s0, v0, st0, ys0, zs0, F0, rfl, hp0, h0, rfl, hsem0⟩ := peel h (by decide)
  obtain ⟨rfl, e0, b0, hT0, rfl⟩ := hsem0
  exact reduced hi [_] (F' := p.fields) (res := p.result) (ys1 := zs0) hst h0 (by simp) rfl rfl (by decide)
    (rfl) ⟨rfl, .mk .none e0 b0, by rw [QClause.written, List.append_assoc, hT0]; simp [QSign.written],
      by rw [QClause.meant, ← getBoolCls_eq]; rfl⟩ (goto_of hp0 (by decide)) [15] rfl 0
    (Nat.zero_le _) (by decide) (fun h => absurd h (by decide))

theorem red11 (E : Env cfg full) (hi : Inv cfg qlen full p ys las zs) (hst : p.stack = (16, v) :: st) :
    RedGood cfg qlen full p las zs 11 := by
  have h := hi.stk
  rw [hst] at h
  obtain ⟨s0, v0, st0, ys0, zs0, F0, rfl, hp0, h0, rfl, hsem0⟩ := peel h (by decide)
  obtain ⟨rfl, e0, hT0, rfl⟩ := hsem0
  exact reduced hi [_] (F' := p.fields) (res := p.result) (ys1 := zs0) hst h0 (by simp) rfl rfl (by decide)
    (rfl) ⟨rfl, e0, none, by simp [writtenBoost, hT0], by cases e0.meant (lang cfg) (cur p.fields) <;> rfl⟩ (goto_of hp0 (by decide)) [16] rfl 0
    (Nat.zero_le _) (by decide) (fun h => absurd h (by decide))

theorem red12 (E : Env cfg full) (hi : Inv cfg qlen full p ys las zs) (hst : p.stack = (65, v) :: st) :
    RedGood cfg qlen full p las zs 12 := by
  have h := hi.stk
  rw [hst] at h
  obtain ⟨s0, v0, st0, ys0, t0, rfl, hp0, h0, rfl, ht0, rfl⟩ := peelTok h (by decide) rfl (by decide)
  have hm0 : t0 ∈ full := by rw [hi.all]; simp
  obtain ⟨hl0, hc0, hsp0, hv0⟩ := E.word hm0 ht0
  rw [hv0] at hst
  obtain rfl : s0 = 43 := by simpa [preds, predsT] using hp0
  obtain ⟨s1, v1, st1, ys1, t1, rfl, hp1, h1, rfl, ht1, rfl⟩ := peelTok h0 (by decide) rfl (by decide)
  have hm1 : t1 ∈ full := by rw [hi.all]; simp
  obtain ⟨hc1, hsp1⟩ := E.sym hm1 ht1
  obtain rfl : s1 = 16 := by simpa [preds, predsT] using hp1
  obtain ⟨s2, v2, st2, ys2, zs2, F2, rfl, hp2, h2, rfl, hsem2⟩ := peel h1 (by decide)
  obtain ⟨rfl, e2, hT2, rfl⟩ := hsem2
  exact reduced hi [_, _, _] (F' := p.fields) (res := p.result) (ys1 := zs2 ++ [t1] ++ [t0]) hst h2 (by simp) rfl rfl (by decide)
    (act12 (read_ok (by have := hi.num; have := hi.one; simp [hc0, hc1] at *; omega))) ⟨rfl, e2, some t0.text, by simp [writtenBoost, hT2, hsp0, hsp1],
      by cases e2.meant (lang cfg) (cur p.fields) <;> rfl⟩ (goto_of hp2 (by decide)) [65, 43, 16] rfl 0
    (Nat.zero_le _) (by decide) (fun h => absurd h (by decide))

theorem red13 (E : Env cfg full) (hi : Inv cfg qlen full p ys las zs) (hst : p.stack = (17, v) :: st) :
    RedGood cfg qlen full p las zs 13 := by
  have h := hi.stk
  rw [hst] at h
  obtain ⟨s0, v0, st0, ys0, zs0, F0, rfl, hp0, h0, rfl, hsem0⟩ := peel h (by decide)
  obtain ⟨rfl, e0, hT0, rfl⟩ := hsem0
  exact reduced hi [_] (F' := p.fields) (res := p.result) (ys1 := zs0) hst h0 (by simp) rfl rfl (by decide)
    (rfl) ⟨rfl, e0, by simpa using hT0, rfl⟩ (goto_of hp0 (by decide)) [17] rfl 0
    (Nat.zero_le _) (by decide) (fun h => absurd h (by decide))

theorem red16 (E : Env cfg full) (hi : Inv cfg qlen full p ys las zs) (hst : p.stack = (19, v) :: st) :
    RedGood cfg qlen full p las zs 16 := by
  have h := hi.stk
  rw [hst] at h
  obtain ⟨s0, v0, st0, ys0, zs0, F0, rfl, hp0, h0, rfl, hsem0⟩ := peel h (by decide)
  obtain ⟨rfl, e0, hT0, rfl⟩ := hsem0
  exact reduced hi [_] (F' := p.fields) (res := p.result) (ys1 := zs0) hst h0 (by simp) rfl rfl (by decide)
    (rfl) ⟨rfl, e0, by simpa using hT0, rfl⟩ (goto_of hp0 (by decide)) [19] rfl 0
    (Nat.zero_le _) (by decide) (fun h => absurd h (by decide))

theorem red17 (E : Env cfg full) (hi : Inv cfg qlen full p ys las zs) (hst : p.stack = (21, v) :: st) :
    RedGood cfg qlen full p las zs 17 := by
  have h := hi.stk
  rw [hst] at h
  obtain ⟨s0, v0, st0, ys0, zs0, F0, rfl, hp0, h0, rfl, hsem0⟩ := peel h (by decide)
  obtain ⟨rfl, e0, hT0, rfl⟩ := hsem0
  exact reduced hi [_] (F' := p.fields) (res := p.result) (ys1 := zs0) hst h0 (by simp) rfl rfl (by decide)
    (rfl) ⟨rfl, e0, by simpa using hT0, rfl⟩ (goto_of hp0 (by decide)) [21] rfl 0
    (Nat.zero_le _) (by decide) (fun h => absurd h (by decide))

theorem red18 (E : Env cfg full) (hi : Inv cfg qlen full p ys las zs) (hst : p.stack = (22, v) :: st) :
    RedGood cfg qlen full p las zs 18 := by
  have h := hi.stk
  rw [hst] at h
  obtain ⟨s0, v0, st0, ys0, zs0, F0, rfl, hp0, h0, rfl, hsem0⟩ := peel h (by decide)
  obtain ⟨rfl, e0, hT0, rfl⟩ := hsem0
  exact reduced hi [_] (F' := p.fields) (res := p.result) (ys1 := zs0) hst h0 (by simp) rfl rfl (by decide)
    (rfl) ⟨rfl, e0, by simpa using hT0, rfl⟩ (goto_of hp0 (by decide)) [22] rfl 0
    (Nat.zero_le _) (by decide) (fun h => absurd h (by decide))

theorem red19 (E : Env cfg full) (hi : Inv cfg qlen full p ys las zs) (hst : p.stack = (18, v) :: st) :
    RedGood cfg qlen full p las zs 19 := by
  have h := hi.stk
  rw [hst] at h
  obtain ⟨s0, v0, st0, ys0, zs0, F0, rfl, hp0, h0, rfl, hsem0⟩ := peel h (by decide)
  obtain ⟨rfl, e0, hT0, rfl⟩ := hsem0
  exact reduced hi [_] (F' := p.fields) (res := p.result) (ys1 := zs0) hst h0 (by simp) rfl rfl (by decide)
    (rfl) ⟨rfl, e0, by simpa using hT0, rfl⟩ (goto_of hp0 (by decide)) [18] rfl 0
    (Nat.zero_le _) (by decide) (fun h => absurd h (by decide))

theorem red14 (E : Env cfg full) (hi : Inv cfg qlen full p ys las zs) (hst : p.stack = (26, v) :: st) :
    RedGood cfg qlen full p las zs 14 := by
  have h := hi.stk
  rw [hst] at h
  obtain ⟨s0, v0, st0, ys0, t0, rfl, hp0, h0, rfl, ht0, rfl⟩ := peelTok h (by decide) rfl (by decide)
  have hm0 : t0 ∈ full := by rw [hi.all]; simp
  obtain ⟨hc0, hsp0⟩ := E.sym hm0 ht0
  obtain rfl : s0 = 5 := by simpa [preds, predsT] using hp0
  obtain ⟨s1, v1, st1, ys1, t1, rfl, hp1, h1, rfl, ht1, rfl⟩ := peelTok h0 (by decide) rfl (by decide)
  have hm1 : t1 ∈ full := by rw [hi.all]; simp
  obtain ⟨hc1, hsp1⟩ := E.sym hm1 ht1
  exact reduced hi [_, _] (F' := p.fields) (res := p.result) (ys1 := [t1] ++ [t0]) hst h1 (by simp) rfl rfl (by decide)
    (rfl) ⟨rfl, .nothing, by simp [QExp.written, hsp0, hsp1], by rw [QExp.meant]⟩ (goto_of hp1 (by decide)) [26, 5] rfl 0
    (Nat.zero_le _) (by decide) (fun h => absurd h (by decide))

theorem red15 (E : Env cfg full) (hi : Inv cfg qlen full p ys las zs) (hst : p.stack = (47, v) :: st) :
    RedGood cfg qlen full p las zs 15 := by
  have h := hi.stk
  rw [hst] at h
  obtain ⟨s0, v0, st0, ys0, t0, rfl, hp0, h0, rfl, ht0, rfl⟩ := peelTok h (by decide) rfl (by decide)
  have hm0 : t0 ∈ full := by rw [hi.all]; simp
  obtain ⟨hc0, hsp0⟩ := E.sym hm0 ht0
  obtain rfl : s0 = 27 := by simpa [preds, predsT] using hp0
  obtain ⟨s1, v1, st1, ys1, zs1, F1, rfl, hp1, h1, rfl, hsem1⟩ := peel h0 (by decide)
  obtain ⟨rfl, T1, hT1, rfl⟩ := hsem1
  obtain rfl : s1 = 5 := by simpa [preds, predsT] using hp1
  obtain ⟨s2, v2, st2, ys2, t2, rfl, hp2, h2, rfl, ht2, rfl⟩ := peelTok h1 (by decide) rfl (by decide)
  have hm2 : t2 ∈ full := by rw [hi.all]; simp
  obtain ⟨hc2, hsp2⟩ := E.sym hm2 ht2
  exact reduced hi [_, _, _] (F' := p.fields) (res := p.result) (ys1 := [t2] ++ zs1 ++ [t0]) hst h2 (by simp) rfl rfl (by decide)
    (rfl) ⟨rfl, .parens T1, by simp [QExp.written, hT1, hsp0, hsp2], by rw [QExp.meant, getBoolQ_eq]⟩ (goto_of hp2 (by decide)) [47, 27, 5] rfl 0
    (Nat.zero_le _) (by decide) (fun h => absurd h (by decide))

theorem red20 (E : Env cfg full) (hi : Inv cfg qlen full p ys las zs) (hst : p.stack = (1, v) :: st) :
    RedGood cfg qlen full p las zs 20 := by
  have h := hi.stk
  rw [hst] at h
  obtain ⟨s0, v0, st0, ys0, t0, rfl, hp0, h0, rfl, ht0, rfl⟩ := peelTok h (by decide) rfl (by decide)
  have hm0 : t0 ∈ full := by rw [hi.all]; simp
  obtain ⟨hl0, hc0, hsp0, hv0⟩ := E.word hm0 ht0
  rw [hv0] at hst
  obtain ⟨q, hq⟩ := leafQ_word cfg (cur p.fields) t0.text
  exact reduced hi [_] (F' := p.fields) (res := p.result) (ys1 := [t0]) hst h0 (by simp) rfl rfl (by decide)
    (act20 (read_ok (by have := hi.num; have := hi.one; simp [hc0] at *; omega)) hq) ⟨rfl, .leaf (.word t0.text), by simp [QExp.written, QLeaf.written, hsp0], by rw [QExp.meant, lang_leaf hq]⟩ (goto_of hp0 (by decide)) [1] rfl 0
    (Nat.zero_le _) (by decide) (fun h => absurd h (by decide))

theorem red21 (E : Env cfg full) (hi : Inv cfg qlen full p ys las zs) (hst : p.stack = (46, v) :: st) :
    RedGood cfg qlen full p las zs 21 := by
  have h := hi.stk
  rw [hst] at h
  obtain ⟨s0, v0, st0, ys0, t0, rfl, hp0, h0, rfl, ht0, rfl⟩ := peelTok h (by decide) rfl (by decide)
  have hm0 : t0 ∈ full := by rw [hi.all]; simp
  obtain ⟨hl0, hc0, hsp0, hv0⟩ := E.word hm0 ht0
  rw [hv0] at hst
  obtain rfl : s0 = 23 := by simpa [preds, predsT] using hp0
  obtain ⟨s1, v1, st1, ys1, t1, rfl, hp1, h1, rfl, ht1, rfl⟩ := peelTok h0 (by decide) rfl (by decide)
  have hm1 : t1 ∈ full := by rw [hi.all]; simp
  obtain ⟨hc1, hsp1⟩ := E.sym hm1 ht1
  obtain rfl : s1 = 1 := by simpa [preds, predsT] using hp1
  obtain ⟨s2, v2, st2, ys2, t2, rfl, hp2, h2, rfl, ht2, rfl⟩ := peelTok h1 (by decide) rfl (by decide)
  have hm2 : t2 ∈ full := by rw [hi.all]; simp
  obtain ⟨hl2, hc2, hsp2, hv2⟩ := E.word hm2 ht2
  rw [hv2] at hst
  have hla : las = [] := hi.top _ _ _ hst (by decide) (by decide)
  obtain ⟨q, hq⟩ := leafQ_fuzzy cfg (cur p.fields) t2.text (some t0.text)
  exact reduced hi [_, _, _] (F' := p.fields) (res := p.result) (ys1 := [t2] ++ [t1] ++ [t0]) hst h2 (by simp) rfl rfl (by decide)
    (act21 (read_ok (by have := hi.num; simp [hla, hc0, hc1, hc2] at *; omega))
      (read_ok (by have := hi.num; simp [hla, hc0, hc1, hc2] at *; omega)) hq) ⟨rfl, .leaf (.fuzzy t2.text (some t0.text)), by simp [QExp.written, QLeaf.written, hsp0, hsp1, hsp2], by rw [QExp.meant, lang_leaf hq]⟩ (goto_of hp2 (by decide)) [46, 23, 1] rfl 0
    (Nat.zero_le _) (by decide) (fun h => absurd h (by decide))

theorem red22 (E : Env cfg full) (hi : Inv cfg qlen full p ys las zs) (hst : p.stack = (23, v) :: st) :
    RedGood cfg qlen full p las zs 22 := by
  have h := hi.stk
  rw [hst] at h
  obtain ⟨s0, v0, st0, ys0, t0, rfl, hp0, h0, rfl, ht0, rfl⟩ := peelTok h (by decide) rfl (by decide)
  have hm0 : t0 ∈ full := by rw [hi.all]; simp
  obtain ⟨hc0, hsp0⟩ := E.sym hm0 ht0
  obtain rfl : s0 = 1 := by simpa [preds, predsT] using hp0
  obtain ⟨s1, v1, st1, ys1, t1, rfl, hp1, h1, rfl, ht1, rfl⟩ := peelTok h0 (by decide) rfl (by decide)
  have hm1 : t1 ∈ full := by rw [hi.all]; simp
  obtain ⟨hl1, hc1, hsp1, hv1⟩ := E.word hm1 ht1
  rw [hv1] at hst
  obtain ⟨q, hq⟩ := leafQ_fuzzy cfg (cur p.fields) t1.text none
  exact reduced hi [_, _] (F' := p.fields) (res := p.result) (ys1 := [t1] ++ [t0]) hst h1 (by simp) rfl rfl (by decide)
    (act22 (read_ok (by have := hi.num; have := hi.one; simp [hc0, hc1] at *; omega)) hq) ⟨rfl, .leaf (.fuzzy t1.text none), by simp [QExp.written, QLeaf.written, hsp0, hsp1], by rw [QExp.meant, lang_leaf hq]⟩ (goto_of hp1 (by decide)) [23, 1] rfl 0
    (Nat.zero_le _) (by decide) (fun h => absurd h (by decide))

theorem red23 (E : Env cfg full) (hi : Inv cfg qlen full p ys las zs) (hst : p.stack = (2, v) :: st) :
    RedGood cfg qlen full p las zs 23 := by
  have h := hi.stk
  rw [hst] at h
  obtain ⟨s0, v0, st0, ys0, t0, rfl, hp0, h0, rfl, ht0, rfl⟩ := peelTok h (by decide) rfl (by decide)
  have hm0 : t0 ∈ full := by rw [hi.all]; simp
  obtain ⟨hl0, hc0, hsp0, hv0⟩ := E.wild hm0 ht0
  rw [hv0] at hst
  obtain ⟨q, hq⟩ := leafQ_wild (cfg := cfg) (F := cur p.fields) hl0
  exact reduced hi [_] (F' := p.fields) (res := p.result) (ys1 := [t0]) hst h0 (by simp) rfl rfl (by decide)
    (act23 (read_ok (by have := hi.num; have := hi.one; simp [hc0] at *; omega)) hq) ⟨rfl, .leaf (.wild t0.text), by simp [QExp.written, QLeaf.written, hsp0], by rw [QExp.meant, lang_leaf hq]⟩ (goto_of hp0 (by decide)) [2] rfl 0
    (Nat.zero_le _) (by decide) (fun h => absurd h (by decide))

theorem red25 (E : Env cfg full) (hi : Inv cfg qlen full p ys las zs) (hst : p.stack = (77, v) :: st) :
    RedGood cfg qlen full p las zs 25 := by
  have h := hi.stk
  rw [hst] at h
  obtain ⟨s0, v0, st0, ys0, zs0, F0, rfl, hp0, h0, rfl, hsem0⟩ := peel h (by decide)
  obtain ⟨rfl, hF0⟩ := hsem0
  obtain rfl : s0 = 66 := by simpa [preds, predsT] using hp0
  obtain ⟨s1, v1, st1, ys1, zs1, F1, rfl, hp1, h1, rfl, hsem1⟩ := peel h0 (by decide)
  obtain ⟨rfl, e1, hT1, rfl⟩ := hsem1
  obtain rfl : s1 = 44 := by simpa [preds, predsT] using hp1
  obtain ⟨s2, v2, st2, ys2, t2, rfl, hp2, h2, rfl, ht2, rfl⟩ := peelTok h1 (by decide) rfl (by decide)
  have hm2 : t2 ∈ full := by rw [hi.all]; simp
  obtain ⟨hc2, hsp2⟩ := E.sym hm2 ht2
  obtain rfl : s2 = 20 := by simpa [preds, predsT] using hp2
  obtain ⟨s3, v3, st3, ys3, zs3, F3, rfl, hp3, h3, rfl, hsem3⟩ := peel h2 (by decide)
  obtain ⟨f3, fs3, hT3, hF3⟩ := hsem3
  exact reduced hi [_, _, _, _] (F' := p.fields) (res := p.result) (ys1 := zs3 ++ [t2] ++ zs1 ++ []) hst h3 (by simp) rfl rfl (by decide)
    (rfl) ⟨by rw [hF0, hF3]; rfl, .within f3 fs3 e1, by
      rw [QExp.written, hT3, hT1]; simp [hsp2], by rw [QExp.meant, hF3]; rfl⟩ (goto_of hp3 (by decide)) [77, 66, 44, 20] rfl 0
    (Nat.zero_le _) (by decide) (fun h => absurd h (by decide))

theorem red28 (E : Env cfg full) (hi : Inv cfg qlen full p ys las zs) (hst : p.stack = (78, v) :: st) :
    RedGood cfg qlen full p las zs 28 := by
  have h := hi.stk
  rw [hst] at h
  obtain ⟨s0, v0, st0, ys0, zs0, F0, rfl, hp0, h0, rfl, hsem0⟩ := peel h (by decide)
  obtain ⟨rfl, hF0⟩ := hsem0
  obtain rfl : s0 = 68 := by simpa [preds, predsT] using hp0
  obtain ⟨s1, v1, st1, ys1, zs1, F1, rfl, hp1, h1, rfl, hsem1⟩ := peel h0 (by decide)
  obtain ⟨rfl, e1, hT1, rfl⟩ := hsem1
  obtain rfl : s1 = 48 := by simpa [preds, predsT] using hp1
  obtain ⟨s2, v2, st2, ys2, t2, rfl, hp2, h2, rfl, ht2, rfl⟩ := peelTok h1 (by decide) rfl (by decide)
  have hm2 : t2 ∈ full := by rw [hi.all]; simp
  obtain ⟨hc2, hsp2⟩ := E.sym hm2 ht2
  obtain rfl : s2 = 28 := by simpa [preds, predsT] using hp2
  obtain ⟨s3, v3, st3, ys3, zs3, F3, rfl, hp3, h3, rfl, hsem3⟩ := peel h2 (by decide)
  obtain ⟨rfl, hF3⟩ := hsem3
  obtain rfl : s3 = 6 := by simpa [preds, predsT] using hp3
  obtain ⟨s4, v4, st4, ys4, t4, rfl, hp4, h4, rfl, ht4, rfl⟩ := peelTok h3 (by decide) rfl (by decide)
  have hm4 : t4 ∈ full := by rw [hi.all]; simp
  obtain ⟨hc4, hsp4⟩ := E.sym hm4 ht4
  exact reduced hi [_, _, _, _, _] (F' := p.fields) (res := p.result) (ys1 := [t4] ++ [] ++ [t2] ++ zs1 ++ []) hst h4 (by simp) rfl rfl (by decide)
    (rfl) ⟨by rw [hF0, hF3]; rfl, .everywhere e1, by
      rw [QExp.written, hT1]; simp [hsp2, hsp4], by rw [QExp.meant, hF3]; rfl⟩ (goto_of hp4 (by decide)) [78, 68, 48, 28, 6] rfl 0
    (Nat.zero_le _) (by decide) (fun h => absurd h (by decide))

theorem red29 (E : Env cfg full) (hi : Inv cfg qlen full p ys las zs) (hst : p.stack = (1, v) :: st) :
    RedGood cfg qlen full p las zs 29 := by
  have h := hi.stk
  rw [hst] at h
  obtain ⟨s0, v0, st0, ys0, t0, rfl, hp0, h0, rfl, ht0, rfl⟩ := peelTok h (by decide) rfl (by decide)
  have hm0 : t0 ∈ full := by rw [hi.all]; simp
  obtain ⟨hl0, hc0, hsp0, hv0⟩ := E.word hm0 ht0
  rw [hv0] at hst
  exact reduced hi [_] (F' := addField cfg t0.text [] :: p.fields) (res := p.result) (ys1 := [t0]) hst h0 (by simp) rfl rfl (by decide)
    (act29 (read_ok (by have := hi.num; have := hi.one; simp [hc0] at *; omega))) ⟨t0.text, [], by simp [hsp0], by simp [QLang.fields, addField, lang]⟩ (goto_of hp0 (by decide)) [1] rfl 0
    (Nat.zero_le _) (by decide) (fun h => absurd h (by decide))

theorem red30 (E : Env cfg full) (hi : Inv cfg qlen full p ys las zs) (hst : p.stack = (67, v) :: st) :
    RedGood cfg qlen full p las zs 30 := by
  have h := hi.stk
  rw [hst] at h
  obtain ⟨s0, v0, st0, ys0, t0, rfl, hp0, h0, rfl, ht0, rfl⟩ := peelTok h (by decide) rfl (by decide)
  have hm0 : t0 ∈ full := by rw [hi.all]; simp
  obtain ⟨hl0, hc0, hsp0, hv0⟩ := E.word hm0 ht0
  rw [hv0] at hst
  obtain rfl : s0 = 45 := by simpa [preds, predsT] using hp0
  obtain ⟨s1, v1, st1, ys1, t1, rfl, hp1, h1, rfl, ht1, rfl⟩ := peelTok h0 (by decide) rfl (by decide)
  have hm1 : t1 ∈ full := by rw [hi.all]; simp
  obtain ⟨hc1, hsp1⟩ := E.sym hm1 ht1
  obtain rfl : s1 = 20 := by simpa [preds, predsT] using hp1
  obtain ⟨s2, v2, st2, ys2, zs2, F2, rfl, hp2, h2, rfl, hsem2⟩ := peel h1 (by decide)
  obtain ⟨f2, fs2, hT2, hF2⟩ := hsem2
  exact reduced hi [_, _, _] (F' := addField cfg t0.text (cur p.fields) :: p.fields.tail) (res := p.result) (ys1 := zs2 ++ [t1] ++ [t0]) hst h2 (by simp) rfl rfl (by decide)
    (act30 (read_ok (by have := hi.num; have := hi.one; simp [hc0, hc1] at *; omega))) ⟨f2, fs2 ++ [t0.text], by
      rw [List.flatMap_append, ← List.append_assoc, hT2]; simp [hsp0, hsp1], by rw [hF2]; simp [cur, fields_snoc]⟩ (goto_of hp2 (by decide)) [67, 45, 20] rfl 0
    (Nat.zero_le _) (by decide) (fun h => absurd h (by decide))

theorem red31 (E : Env cfg full) (hi : Inv cfg qlen full p ys las zs) (hst : p.stack = (53, v) :: st) :
    RedGood cfg qlen full p las zs 31 := by
  have h := hi.stk
  rw [hst] at h
  obtain ⟨s0, v0, st0, ys0, t0, rfl, hp0, h0, rfl, ht0, rfl⟩ := peelTok h (by decide) rfl (by decide)
  have hm0 : t0 ∈ full := by rw [hi.all]; simp
  obtain ⟨hc0, hsp0⟩ := E.sym hm0 ht0
  obtain rfl : s0 = 32 := by simpa [preds, predsT] using hp0
  obtain ⟨s1, v1, st1, ys1, zs1, F1, rfl, hp1, h1, rfl, hsem1⟩ := peel h0 (by decide)
  obtain ⟨rfl, first1, spots1, ph1, hT1, hP1, rfl⟩ := hsem1
  obtain rfl : s1 = 7 := by simpa [preds, predsT] using hp1
  obtain ⟨s2, v2, st2, ys2, t2, rfl, hp2, h2, rfl, ht2, rfl⟩ := peelTok h1 (by decide) rfl (by decide)
  have hm2 : t2 ∈ full := by rw [hi.all]; simp
  obtain ⟨hc2, hsp2⟩ := E.sym hm2 ht2
  obtain ⟨q, hq⟩ := leafQ_phrase (cfg := cfg) (F := cur p.fields) (slop := none) hP1 (fun w e => by cases e)
  exact reduced hi [_, _, _] (F' := p.fields) (res := p.result) (ys1 := [t2] ++ zs1 ++ [t0]) hst h2 (by simp) rfl rfl (by decide)
    (act31 hP1 hq) ⟨rfl, .leaf (.phrase first1 spots1 none), by simp [QExp.written, QLeaf.written, writtenSlop, ← hT1, hsp0, hsp2], by rw [QExp.meant, lang_leaf hq]⟩ (goto_of hp2 (by decide)) [53, 32, 7] rfl 0
    (Nat.zero_le _) (by decide) (fun h => absurd h (by decide))

theorem red32 (E : Env cfg full) (hi : Inv cfg qlen full p ys las zs) (hst : p.stack = (79, v) :: st) :
    RedGood cfg qlen full p las zs 32 := by
  have h := hi.stk
  rw [hst] at h
  obtain ⟨s0, v0, st0, ys0, t0, rfl, hp0, h0, rfl, ht0, rfl⟩ := peelTok h (by decide) rfl (by decide)
  have hm0 : t0 ∈ full := by rw [hi.all]; simp
  obtain ⟨hl0, hc0, hsp0, hv0⟩ := E.word hm0 ht0
  rw [hv0] at hst
  obtain rfl : s0 = 71 := by simpa [preds, predsT] using hp0
  obtain ⟨s1, v1, st1, ys1, t1, rfl, hp1, h1, rfl, ht1, rfl⟩ := peelTok h0 (by decide) rfl (by decide)
  have hm1 : t1 ∈ full := by rw [hi.all]; simp
  obtain ⟨hc1, hsp1⟩ := E.sym hm1 ht1
  obtain rfl : s1 = 53 := by simpa [preds, predsT] using hp1
  obtain ⟨s2, v2, st2, ys2, t2, rfl, hp2, h2, rfl, ht2, rfl⟩ := peelTok h1 (by decide) rfl (by decide)
  have hm2 : t2 ∈ full := by rw [hi.all]; simp
  obtain ⟨hc2, hsp2⟩ := E.sym hm2 ht2
  obtain rfl : s2 = 32 := by simpa [preds, predsT] using hp2
  obtain ⟨s3, v3, st3, ys3, zs3, F3, rfl, hp3, h3, rfl, hsem3⟩ := peel h2 (by decide)
  obtain ⟨rfl, first3, spots3, ph3, hT3, hP3, rfl⟩ := hsem3
  obtain rfl : s3 = 7 := by simpa [preds, predsT] using hp3
  obtain ⟨s4, v4, st4, ys4, t4, rfl, hp4, h4, rfl, ht4, rfl⟩ := peelTok h3 (by decide) rfl (by decide)
  have hm4 : t4 ∈ full := by rw [hi.all]; simp
  obtain ⟨hc4, hsp4⟩ := E.sym hm4 ht4
  have hnum : qNumber t0.text := E.tame.slop ((ys4 ++ [t4] ++ zs3).map LexTok.spec) t0.text
    ((las ++ zs).map LexTok.spec) (by rw [hi.all]; simp [hsp0, hsp1, hsp2])
  obtain ⟨q, hq⟩ := leafQ_phrase (cfg := cfg) (F := cur p.fields) (slop := some t0.text) hP3
    (fun w e => by cases e; exact scanInt_number hnum)
  exact reduced hi [_, _, _, _, _] (F' := p.fields) (res := p.result) (ys1 := [t4] ++ zs3 ++ [t2] ++ [t1] ++ [t0]) hst h4 (by simp) rfl rfl (by decide)
    (act32 (read_ok (by have := hi.num; have := hi.one; simp [hc0] at *; omega)) hP3 hq) ⟨rfl, .leaf (.phrase first3 spots3 (some t0.text)), by simp [QExp.written, QLeaf.written, writtenSlop, ← hT3, hsp0, hsp1, hsp2, hsp4], by rw [QExp.meant, lang_leaf hq]⟩ (goto_of hp4 (by decide)) [79, 71, 53, 32, 7] rfl 0
    (Nat.zero_le _) (by decide) (fun h => absurd h (by decide))

theorem red33 (E : Env cfg full) (hi : Inv cfg qlen full p ys las zs) (hst : p.stack = (30, v) :: st) :
    RedGood cfg qlen full p las zs 33 := by
  have h := hi.stk
  rw [hst] at h
  obtain ⟨s0, v0, st0, ys0, t0, rfl, hp0, h0, rfl, ht0, rfl⟩ := peelTok h (by decide) rfl (by decide)
  have hm0 : t0 ∈ full := by rw [hi.all]; simp
  obtain ⟨hc0, hsp0⟩ := E.sym hm0 ht0
  obtain rfl : s0 = 7 := by simpa [preds, predsT] using hp0
  obtain ⟨s1, v1, st1, ys1, t1, rfl, hp1, h1, rfl, ht1, rfl⟩ := peelTok h0 (by decide) rfl (by decide)
  have hm1 : t1 ∈ full := by rw [hi.all]; simp
  obtain ⟨hc1, hsp1⟩ := E.sym hm1 ht1
  exact reduced hi [_, _] (F' := p.fields) (res := p.result) (ys1 := [t1] ++ [t0]) hst h1 (by simp) rfl rfl (by decide)
    (rfl) ⟨rfl, .leaf (.noPhrase none), by simp [QExp.written, QLeaf.written, writtenSlop, hsp0, hsp1], by rw [QExp.meant, lang_leaf (q := none) rfl]⟩ (goto_of hp1 (by decide)) [30, 7] rfl 0
    (Nat.zero_le _) (by decide) (fun h => absurd h (by decide))

theorem red34 (E : Env cfg full) (hi : Inv cfg qlen full p ys las zs) (hst : p.stack = (69, v) :: st) :
    RedGood cfg qlen full p las zs 34 := by
  have h := hi.stk
  rw [hst] at h
  obtain ⟨s0, v0, st0, ys0, t0, rfl, hp0, h0, rfl, ht0, rfl⟩ := peelTok h (by decide) rfl (by decide)
  have hm0 : t0 ∈ full := by rw [hi.all]; simp
  obtain ⟨hl0, hc0, hsp0, hv0⟩ := E.word hm0 ht0
  rw [hv0] at hst
  obtain rfl : s0 = 49 := by simpa [preds, predsT] using hp0
  obtain ⟨s1, v1, st1, ys1, t1, rfl, hp1, h1, rfl, ht1, rfl⟩ := peelTok h0 (by decide) rfl (by decide)
  have hm1 : t1 ∈ full := by rw [hi.all]; simp
  obtain ⟨hc1, hsp1⟩ := E.sym hm1 ht1
  obtain rfl : s1 = 30 := by simpa [preds, predsT] using hp1
  obtain ⟨s2, v2, st2, ys2, t2, rfl, hp2, h2, rfl, ht2, rfl⟩ := peelTok h1 (by decide) rfl (by decide)
  have hm2 : t2 ∈ full := by rw [hi.all]; simp
  obtain ⟨hc2, hsp2⟩ := E.sym hm2 ht2
  obtain rfl : s2 = 7 := by simpa [preds, predsT] using hp2
  obtain ⟨s3, v3, st3, ys3, t3, rfl, hp3, h3, rfl, ht3, rfl⟩ := peelTok h2 (by decide) rfl (by decide)
  have hm3 : t3 ∈ full := by rw [hi.all]; simp
  obtain ⟨hc3, hsp3⟩ := E.sym hm3 ht3
  exact reduced hi [_, _, _, _] (F' := p.fields) (res := p.result) (ys1 := [t3] ++ [t2] ++ [t1] ++ [t0]) hst h3 (by simp) rfl rfl (by decide)
    (rfl) ⟨rfl, .leaf (.noPhrase (some t0.text)), by simp [QExp.written, QLeaf.written, writtenSlop, hsp0, hsp1, hsp2, hsp3], by rw [QExp.meant, lang_leaf (q := none) rfl]⟩ (goto_of hp3 (by decide)) [69, 49, 30, 7] rfl 0
    (Nat.zero_le _) (by decide) (fun h => absurd h (by decide))

theorem red35 (E : Env cfg full) (hi : Inv cfg qlen full p ys las zs) (hst : p.stack = (29, v) :: st) :
    RedGood cfg qlen full p las zs 35 := by
  have h := hi.stk
  rw [hst] at h
  obtain ⟨s0, v0, st0, ys0, t0, rfl, hp0, h0, rfl, ht0, rfl⟩ := peelTok h (by decide) rfl (by decide)
  have hm0 : t0 ∈ full := by rw [hi.all]; simp
  obtain ⟨hl0, hc0, hsp0, hv0⟩ := E.word hm0 ht0
  rw [hv0] at hst
  exact reduced hi [_] (F' := p.fields) (res := p.result) (ys1 := [t0]) hst h0 (by simp) rfl rfl (by decide)
    (act35 (read_ok (by have := hi.num; have := hi.one; simp [hc0] at *; omega))) ⟨rfl, some t0.text, [], _, by simp [writtenFirst, hsp0], rfl, rfl⟩ (goto_of hp0 (by decide)) [29] rfl 0
    (Nat.zero_le _) (by decide) (fun h => absurd h (by decide))

theorem red36 (E : Env cfg full) (hi : Inv cfg qlen full p ys las zs) (hst : p.stack = (50, v) :: st) :
    RedGood cfg qlen full p las zs 36 := by
  have h := hi.stk
  rw [hst] at h
  obtain ⟨s0, v0, st0, ys0, t0, rfl, hp0, h0, rfl, ht0, rfl⟩ := peelTok h (by decide) rfl (by decide)
  have hm0 : t0 ∈ full := by rw [hi.all]; simp
  obtain ⟨hc0, hsp0⟩ := E.sym hm0 ht0
  obtain rfl : s0 = 31 := by simpa [preds, predsT] using hp0
  obtain ⟨s1, v1, st1, ys1, t1, rfl, hp1, h1, rfl, ht1, rfl⟩ := peelTok h0 (by decide) rfl (by decide)
  have hm1 : t1 ∈ full := by rw [hi.all]; simp
  obtain ⟨hc1, hsp1⟩ := E.sym hm1 ht1
  exact reduced hi [_, _] (F' := p.fields) (res := p.result) (ys1 := [t1] ++ [t0]) hst h1 (by simp) rfl rfl (by decide)
    (rfl) ⟨rfl, none, [], _, by simp [writtenFirst, hsp0, hsp1], rfl, rfl⟩ (goto_of hp1 (by decide)) [50, 31] rfl 0
    (Nat.zero_le _) (by decide) (fun h => absurd h (by decide))

theorem red37 (E : Env cfg full) (hi : Inv cfg qlen full p ys las zs) (hst : p.stack = (51, v) :: st) :
    RedGood cfg qlen full p las zs 37 := by
  have h := hi.stk
  rw [hst] at h
  obtain ⟨s0, v0, st0, ys0, t0, rfl, hp0, h0, rfl, ht0, rfl⟩ := peelTok h (by decide) rfl (by decide)
  have hm0 : t0 ∈ full := by rw [hi.all]; simp
  obtain ⟨hl0, hc0, hsp0, hv0⟩ := E.word hm0 ht0
  rw [hv0] at hst
  obtain rfl : s0 = 32 := by simpa [preds, predsT] using hp0
  obtain ⟨s1, v1, st1, ys1, zs1, F1, rfl, hp1, h1, rfl, hsem1⟩ := peel h0 (by decide)
  obtain ⟨rfl, first1, spots1, ph1, hT1, hP1, rfl⟩ := hsem1
  exact reduced hi [_, _] (F' := p.fields) (res := p.result) (ys1 := zs1 ++ [t0]) hst h1 (by simp) rfl rfl (by decide)
    (act37 (read_ok (by have := hi.num; have := hi.one; simp [hc0] at *; omega))) ⟨rfl, first1, spots1 ++ [.next t0.text], _, by
      rw [List.flatMap_append, ← List.append_assoc, hT1]; simp [QSpot.written, hsp0],
      (phraseOf_snoc hP1).trans rfl, rfl⟩ (goto_of hp1 (by decide)) [51, 32] rfl 0
    (Nat.zero_le _) (by decide) (fun h => absurd h (by decide))

theorem red38 (E : Env cfg full) (hi : Inv cfg qlen full p ys las zs) (hst : p.stack = (72, v) :: st) :
    RedGood cfg qlen full p las zs 38 := by
  have h := hi.stk
  rw [hst] at h
  obtain ⟨s0, v0, st0, ys0, t0, rfl, hp0, h0, rfl, ht0, rfl⟩ := peelTok h (by decide) rfl (by decide)
  have hm0 : t0 ∈ full := by rw [hi.all]; simp
  obtain ⟨hc0, hsp0⟩ := E.sym hm0 ht0
  obtain rfl : s0 = 54 := by simpa [preds, predsT] using hp0
  obtain ⟨s1, v1, st1, ys1, t1, rfl, hp1, h1, rfl, ht1, rfl⟩ := peelTok h0 (by decide) rfl (by decide)
  have hm1 : t1 ∈ full := by rw [hi.all]; simp
  obtain ⟨hc1, hsp1⟩ := E.sym hm1 ht1
  obtain rfl : s1 = 32 := by simpa [preds, predsT] using hp1
  obtain ⟨s2, v2, st2, ys2, zs2, F2, rfl, hp2, h2, rfl, hsem2⟩ := peel h1 (by decide)
  obtain ⟨rfl, first2, spots2, ph2, hT2, hP2, rfl⟩ := hsem2
  exact reduced hi [_, _, _] (F' := p.fields) (res := p.result) (ys1 := zs2 ++ [t1] ++ [t0]) hst h2 (by simp) rfl rfl (by decide)
    (rfl) ⟨rfl, first2, spots2 ++ [.gap], _, by
      rw [List.flatMap_append, ← List.append_assoc, hT2]; simp [QSpot.written, hsp0, hsp1],
      (phraseOf_snoc hP2).trans rfl, rfl⟩ (goto_of hp2 (by decide)) [72, 54, 32] rfl 0
    (Nat.zero_le _) (by decide) (fun h => absurd h (by decide))

theorem red39 (E : Env cfg full) (hi : Inv cfg qlen full p ys las zs) (hst : p.stack = (70, v) :: st) :
    RedGood cfg qlen full p las zs 39 := by
  have h := hi.stk
  rw [hst] at h
  obtain ⟨s0, v0, st0, ys0, t0, rfl, hp0, h0, rfl, ht0, rfl⟩ := peelTok h (by decide) rfl (by decide)
  have hm0 : t0 ∈ full := by rw [hi.all]; simp
  obtain ⟨hl0, hc0, hsp0, hv0⟩ := E.word hm0 ht0
  rw [hv0] at hst
  obtain rfl : s0 = 52 := by simpa [preds, predsT] using hp0
  obtain ⟨s1, v1, st1, ys1, t1, rfl, hp1, h1, rfl, ht1, rfl⟩ := peelTok h0 (by decide) rfl (by decide)
  have hm1 : t1 ∈ full := by rw [hi.all]; simp
  obtain ⟨hc1, hsp1⟩ := E.sym hm1 ht1
  obtain rfl : s1 = 32 := by simpa [preds, predsT] using hp1
  obtain ⟨s2, v2, st2, ys2, zs2, F2, rfl, hp2, h2, rfl, hsem2⟩ := peel h1 (by decide)
  obtain ⟨rfl, first2, spots2, ph2, hT2, hP2, rfl⟩ := hsem2
  obtain ⟨ph', hph⟩ : ∃ ph', phMulti ph2 t0.text = .ok ph' := by
    rcases phMulti_ok hP2 t0.text with h | ⟨a, ha⟩
    · exact h
    · exact absurd (by rw [hi.all]; simp [hsp0, hsp1, ← hT2, ha]) (E.tame.bar (ys2.map LexTok.spec ++ a)
        (QTok.word t0.text :: (las ++ zs).map LexTok.spec))
  exact reduced hi [_, _, _] (F' := p.fields) (res := p.result) (ys1 := zs2 ++ [t1] ++ [t0]) hst h2 (by simp) rfl rfl (by decide)
    (act39 (read_ok (by have := hi.num; have := hi.one; simp [hc0, hc1] at *; omega)) hph) ⟨rfl, first2, spots2 ++ [.alt t0.text], _, by
      rw [List.flatMap_append, ← List.append_assoc, hT2]; simp [QSpot.written, hsp0, hsp1],
      (phraseOf_snoc hP2).trans (by simp only [phraseRest, hph, Res.ok_bind]), rfl⟩ (goto_of hp2 (by decide)) [70, 52, 32] rfl 0
    (Nat.zero_le _) (by decide) (fun h => absurd h (by decide))

theorem red40 (E : Env cfg full) (hi : Inv cfg qlen full p ys las zs) (hst : p.stack = (73, v) :: st) :
    RedGood cfg qlen full p las zs 40 := by
  have h := hi.stk
  rw [hst] at h
  obtain ⟨s0, v0, st0, ys0, t0, rfl, hp0, h0, rfl, ht0, rfl⟩ := peelTok h (by decide) rfl (by decide)
  have hm0 : t0 ∈ full := by rw [hi.all]; simp
  obtain ⟨hc0, hsp0⟩ := E.sym hm0 ht0
  obtain rfl : s0 = 59 := by simpa [preds, predsT] using hp0
  obtain ⟨s1, v1, st1, ys1, t1, rfl, hp1, h1, rfl, ht1, rfl⟩ := peelTok h0 (by decide) rfl (by decide)
  have hm1 : t1 ∈ full := by rw [hi.all]; simp
  obtain ⟨hl1, hc1, hsp1, hv1⟩ := E.word hm1 ht1
  rw [hv1] at hst
  obtain rfl : s1 = 37 := by simpa [preds, predsT] using hp1
  obtain ⟨s2, v2, st2, ys2, t2, rfl, hp2, h2, rfl, ht2, rfl⟩ := peelTok h1 (by decide) rfl (by decide)
  have hm2 : t2 ∈ full := by rw [hi.all]; simp
  obtain ⟨hl2, hc2, hsp2, hv2⟩ := E.word hm2 ht2
  rw [hv2] at hst
  obtain rfl : s2 = 10 := by simpa [preds, predsT] using hp2
  obtain ⟨s3, v3, st3, ys3, t3, rfl, hp3, h3, rfl, ht3, rfl⟩ := peelTok h2 (by decide) rfl (by decide)
  have hm3 : t3 ∈ full := by rw [hi.all]; simp
  obtain ⟨hc3, hsp3⟩ := E.sym hm3 ht3
  have hla : las = [] := hi.top _ _ _ hst (by decide) (by decide)
  have hact : ∀ x y n n', (⟨t2.text, false, n⟩ : Word).read p.calls = .ok t2.text →
      (⟨t1.text, false, n'⟩ : Word).read p.calls = .ok t1.text →
      act cfg qlen 40 [x, .word ⟨t2.text, false, n⟩, .word ⟨t1.text, false, n'⟩, y] p =
        (leafQ cfg (cur p.fields) (.between t2.text t1.text true true) >>= fun q => pure (Val.q q, p)) :=
    fun _ _ _ _ h h' => rangeAct2 h h' hl2 hl1
  rcases leafQ_between (F := cur p.fields) (incLo := true) (incHi := true) E.low hl2 hl1 with ⟨q, hq⟩ | ⟨⟨e, he⟩, hno⟩
  case inr =>
    refine ⟨_, reduce_raise (hs := [_, _, _, _]) (lhs := 41) hst rfl rfl (by decide)
      ((hact _ _ _ _ (read_ok (by have := hi.num; simp [hla, hc0, hc1, hc2, hc3] at *; omega))
        (read_ok (by have := hi.num; simp [hla, hc0, hc1, hc2, hc3] at *; omega))).trans (by rw [he]; rfl)), ?_⟩
    intro ho
    exact hno (ho (ys3.map LexTok.spec) '[' t2.text t1.text (t0.spec :: (las ++ zs).map LexTok.spec)
      (by rw [hi.all]; simp [hsp1, hsp2, hsp3]) (by decide))
  exact reduced hi [_, _, _, _] (F' := p.fields) (res := p.result) (ys1 := [t3] ++ [t2] ++ [t1] ++ [t0]) hst h3 (by simp) rfl rfl (by decide)
    ((hact _ _ _ _ (read_ok (by have := hi.num; simp [hla, hc0, hc1, hc2, hc3] at *; omega))
      (read_ok (by have := hi.num; simp [hla, hc0, hc1, hc2, hc3] at *; omega))).trans (by rw [hq]; rfl)) ⟨rfl, .leaf (.between t2.text t1.text true true), by simp [QExp.written, QLeaf.written, hsp0, hsp1, hsp2, hsp3], by rw [QExp.meant, lang_leaf hq]⟩ (goto_of hp3 (by decide)) [73, 59, 37, 10] rfl 0
    (Nat.zero_le _) (by decide) (fun h => absurd h (by decide))

theorem red41 (E : Env cfg full) (hi : Inv cfg qlen full p ys las zs) (hst : p.stack = (74, v) :: st) :
    RedGood cfg qlen full p las zs 41 := by
  have h := hi.stk
  rw [hst] at h
  obtain ⟨s0, v0, st0, ys0, t0, rfl, hp0, h0, rfl, ht0, rfl⟩ := peelTok h (by decide) rfl (by decide)
  have hm0 : t0 ∈ full := by rw [hi.all]; simp
  obtain ⟨hc0, hsp0⟩ := E.sym hm0 ht0
  obtain rfl : s0 = 59 := by simpa [preds, predsT] using hp0
  obtain ⟨s1, v1, st1, ys1, t1, rfl, hp1, h1, rfl, ht1, rfl⟩ := peelTok h0 (by decide) rfl (by decide)
  have hm1 : t1 ∈ full := by rw [hi.all]; simp
  obtain ⟨hl1, hc1, hsp1, hv1⟩ := E.word hm1 ht1
  rw [hv1] at hst
  obtain rfl : s1 = 37 := by simpa [preds, predsT] using hp1
  obtain ⟨s2, v2, st2, ys2, t2, rfl, hp2, h2, rfl, ht2, rfl⟩ := peelTok h1 (by decide) rfl (by decide)
  have hm2 : t2 ∈ full := by rw [hi.all]; simp
  obtain ⟨hl2, hc2, hsp2, hv2⟩ := E.word hm2 ht2
  rw [hv2] at hst
  obtain rfl : s2 = 10 := by simpa [preds, predsT] using hp2
  obtain ⟨s3, v3, st3, ys3, t3, rfl, hp3, h3, rfl, ht3, rfl⟩ := peelTok h2 (by decide) rfl (by decide)
  have hm3 : t3 ∈ full := by rw [hi.all]; simp
  obtain ⟨hc3, hsp3⟩ := E.sym hm3 ht3
  have hla : las = [] := hi.top _ _ _ hst (by decide) (by decide)
  have hact : ∀ x y n n', (⟨t2.text, false, n⟩ : Word).read p.calls = .ok t2.text →
      (⟨t1.text, false, n'⟩ : Word).read p.calls = .ok t1.text →
      act cfg qlen 41 [x, .word ⟨t2.text, false, n⟩, .word ⟨t1.text, false, n'⟩, y] p =
        (leafQ cfg (cur p.fields) (.between t2.text t1.text true false) >>= fun q => pure (Val.q q, p)) :=
    fun _ _ _ _ h h' => rangeAct2 h h' hl2 hl1
  rcases leafQ_between (F := cur p.fields) (incLo := true) (incHi := false) E.low hl2 hl1 with ⟨q, hq⟩ | ⟨⟨e, he⟩, hno⟩
  case inr =>
    refine ⟨_, reduce_raise (hs := [_, _, _, _]) (lhs := 41) hst rfl rfl (by decide)
      ((hact _ _ _ _ (read_ok (by have := hi.num; simp [hla, hc0, hc1, hc2, hc3] at *; omega))
        (read_ok (by have := hi.num; simp [hla, hc0, hc1, hc2, hc3] at *; omega))).trans (by rw [he]; rfl)), ?_⟩
    intro ho
    exact hno (ho (ys3.map LexTok.spec) '[' t2.text t1.text (t0.spec :: (las ++ zs).map LexTok.spec)
      (by rw [hi.all]; simp [hsp1, hsp2, hsp3]) (by decide))
  exact reduced hi [_, _, _, _] (F' := p.fields) (res := p.result) (ys1 := [t3] ++ [t2] ++ [t1] ++ [t0]) hst h3 (by simp) rfl rfl (by decide)
    ((hact _ _ _ _ (read_ok (by have := hi.num; simp [hla, hc0, hc1, hc2, hc3] at *; omega))
      (read_ok (by have := hi.num; simp [hla, hc0, hc1, hc2, hc3] at *; omega))).trans (by rw [hq]; rfl)) ⟨rfl, .leaf (.between t2.text t1.text true false), by simp [QExp.written, QLeaf.written, hsp0, hsp1, hsp2, hsp3], by rw [QExp.meant, lang_leaf hq]⟩ (goto_of hp3 (by decide)) [74, 59, 37, 10] rfl 0
    (Nat.zero_le _) (by decide) (fun h => absurd h (by decide))

theorem red42 (E : Env cfg full) (hi : Inv cfg qlen full p ys las zs) (hst : p.stack = (75, v) :: st) :
    RedGood cfg qlen full p las zs 42 := by
  have h := hi.stk
  rw [hst] at h
  obtain ⟨s0, v0, st0, ys0, t0, rfl, hp0, h0, rfl, ht0, rfl⟩ := peelTok h (by decide) rfl (by decide)
  have hm0 : t0 ∈ full := by rw [hi.all]; simp
  obtain ⟨hc0, hsp0⟩ := E.sym hm0 ht0
  obtain rfl : s0 = 61 := by simpa [preds, predsT] using hp0
  obtain ⟨s1, v1, st1, ys1, t1, rfl, hp1, h1, rfl, ht1, rfl⟩ := peelTok h0 (by decide) rfl (by decide)
  have hm1 : t1 ∈ full := by rw [hi.all]; simp
  obtain ⟨hl1, hc1, hsp1, hv1⟩ := E.word hm1 ht1
  rw [hv1] at hst
  obtain rfl : s1 = 38 := by simpa [preds, predsT] using hp1
  obtain ⟨s2, v2, st2, ys2, t2, rfl, hp2, h2, rfl, ht2, rfl⟩ := peelTok h1 (by decide) rfl (by decide)
  have hm2 : t2 ∈ full := by rw [hi.all]; simp
  obtain ⟨hl2, hc2, hsp2, hv2⟩ := E.word hm2 ht2
  rw [hv2] at hst
  obtain rfl : s2 = 11 := by simpa [preds, predsT] using hp2
  obtain ⟨s3, v3, st3, ys3, t3, rfl, hp3, h3, rfl, ht3, rfl⟩ := peelTok h2 (by decide) rfl (by decide)
  have hm3 : t3 ∈ full := by rw [hi.all]; simp
  obtain ⟨hc3, hsp3⟩ := E.sym hm3 ht3
  have hla : las = [] := hi.top _ _ _ hst (by decide) (by decide)
  have hact : ∀ x y n n', (⟨t2.text, false, n⟩ : Word).read p.calls = .ok t2.text →
      (⟨t1.text, false, n'⟩ : Word).read p.calls = .ok t1.text →
      act cfg qlen 42 [x, .word ⟨t2.text, false, n⟩, .word ⟨t1.text, false, n'⟩, y] p =
        (leafQ cfg (cur p.fields) (.between t2.text t1.text false true) >>= fun q => pure (Val.q q, p)) :=
    fun _ _ _ _ h h' => rangeAct2 h h' hl2 hl1
  rcases leafQ_between (F := cur p.fields) (incLo := false) (incHi := true) E.low hl2 hl1 with ⟨q, hq⟩ | ⟨⟨e, he⟩, hno⟩
  case inr =>
    refine ⟨_, reduce_raise (hs := [_, _, _, _]) (lhs := 41) hst rfl rfl (by decide)
      ((hact _ _ _ _ (read_ok (by have := hi.num; simp [hla, hc0, hc1, hc2, hc3] at *; omega))
        (read_ok (by have := hi.num; simp [hla, hc0, hc1, hc2, hc3] at *; omega))).trans (by rw [he]; rfl)), ?_⟩
    intro ho
    exact hno (ho (ys3.map LexTok.spec) '{' t2.text t1.text (t0.spec :: (las ++ zs).map LexTok.spec)
      (by rw [hi.all]; simp [hsp1, hsp2, hsp3]) (by decide))
  exact reduced hi [_, _, _, _] (F' := p.fields) (res := p.result) (ys1 := [t3] ++ [t2] ++ [t1] ++ [t0]) hst h3 (by simp) rfl rfl (by decide)
    ((hact _ _ _ _ (read_ok (by have := hi.num; simp [hla, hc0, hc1, hc2, hc3] at *; omega))
      (read_ok (by have := hi.num; simp [hla, hc0, hc1, hc2, hc3] at *; omega))).trans (by rw [hq]; rfl)) ⟨rfl, .leaf (.between t2.text t1.text false true), by simp [QExp.written, QLeaf.written, hsp0, hsp1, hsp2, hsp3], by rw [QExp.meant, lang_leaf hq]⟩ (goto_of hp3 (by decide)) [75, 61, 38, 11] rfl 0
    (Nat.zero_le _) (by decide) (fun h => absurd h (by decide))

theorem red43 (E : Env cfg full) (hi : Inv cfg qlen full p ys las zs) (hst : p.stack = (76, v) :: st) :
    RedGood cfg qlen full p las zs 43 := by
  have h := hi.stk
  rw [hst] at h
  obtain ⟨s0, v0, st0, ys0, t0, rfl, hp0, h0, rfl, ht0, rfl⟩ := peelTok h (by decide) rfl (by decide)
  have hm0 : t0 ∈ full := by rw [hi.all]; simp
  obtain ⟨hc0, hsp0⟩ := E.sym hm0 ht0
  obtain rfl : s0 = 61 := by simpa [preds, predsT] using hp0
  obtain ⟨s1, v1, st1, ys1, t1, rfl, hp1, h1, rfl, ht1, rfl⟩ := peelTok h0 (by decide) rfl (by decide)
  have hm1 : t1 ∈ full := by rw [hi.all]; simp
  obtain ⟨hl1, hc1, hsp1, hv1⟩ := E.word hm1 ht1
  rw [hv1] at hst
  obtain rfl : s1 = 38 := by simpa [preds, predsT] using hp1
  obtain ⟨s2, v2, st2, ys2, t2, rfl, hp2, h2, rfl, ht2, rfl⟩ := peelTok h1 (by decide) rfl (by decide)
  have hm2 : t2 ∈ full := by rw [hi.all]; simp
  obtain ⟨hl2, hc2, hsp2, hv2⟩ := E.word hm2 ht2
  rw [hv2] at hst
  obtain rfl : s2 = 11 := by simpa [preds, predsT] using hp2
  obtain ⟨s3, v3, st3, ys3, t3, rfl, hp3, h3, rfl, ht3, rfl⟩ := peelTok h2 (by decide) rfl (by decide)
  have hm3 : t3 ∈ full := by rw [hi.all]; simp
  obtain ⟨hc3, hsp3⟩ := E.sym hm3 ht3
  have hla : las = [] := hi.top _ _ _ hst (by decide) (by decide)
  have hact : ∀ x y n n', (⟨t2.text, false, n⟩ : Word).read p.calls = .ok t2.text →
      (⟨t1.text, false, n'⟩ : Word).read p.calls = .ok t1.text →
      act cfg qlen 43 [x, .word ⟨t2.text, false, n⟩, .word ⟨t1.text, false, n'⟩, y] p =
        (leafQ cfg (cur p.fields) (.between t2.text t1.text false false) >>= fun q => pure (Val.q q, p)) :=
    fun _ _ _ _ h h' => rangeAct2 h h' hl2 hl1
  rcases leafQ_between (F := cur p.fields) (incLo := false) (incHi := false) E.low hl2 hl1 with ⟨q, hq⟩ | ⟨⟨e, he⟩, hno⟩
  case inr =>
    refine ⟨_, reduce_raise (hs := [_, _, _, _]) (lhs := 41) hst rfl rfl (by decide)
      ((hact _ _ _ _ (read_ok (by have := hi.num; simp [hla, hc0, hc1, hc2, hc3] at *; omega))
        (read_ok (by have := hi.num; simp [hla, hc0, hc1, hc2, hc3] at *; omega))).trans (by rw [he]; rfl)), ?_⟩
    intro ho
    exact hno (ho (ys3.map LexTok.spec) '{' t2.text t1.text (t0.spec :: (las ++ zs).map LexTok.spec)
      (by rw [hi.all]; simp [hsp1, hsp2, hsp3]) (by decide))
  exact reduced hi [_, _, _, _] (F' := p.fields) (res := p.result) (ys1 := [t3] ++ [t2] ++ [t1] ++ [t0]) hst h3 (by simp) rfl rfl (by decide)
    ((hact _ _ _ _ (read_ok (by have := hi.num; simp [hla, hc0, hc1, hc2, hc3] at *; omega))
      (read_ok (by have := hi.num; simp [hla, hc0, hc1, hc2, hc3] at *; omega))).trans (by rw [hq]; rfl)) ⟨rfl, .leaf (.between t2.text t1.text false false), by simp [QExp.written, QLeaf.written, hsp0, hsp1, hsp2, hsp3], by rw [QExp.meant, lang_leaf hq]⟩ (goto_of hp3 (by decide)) [76, 61, 38, 11] rfl 0
    (Nat.zero_le _) (by decide) (fun h => absurd h (by decide))

theorem red44 (E : Env cfg full) (hi : Inv cfg qlen full p ys las zs) (hst : p.stack = (56, v) :: st) :
    RedGood cfg qlen full p las zs 44 := by
  have h := hi.stk
  rw [hst] at h
  obtain ⟨s0, v0, st0, ys0, t0, rfl, hp0, h0, rfl, ht0, rfl⟩ := peelTok h (by decide) rfl (by decide)
  have hm0 : t0 ∈ full := by rw [hi.all]; simp
  obtain ⟨hc0, hsp0⟩ := E.sym hm0 ht0
  obtain rfl : s0 = 33 := by simpa [preds, predsT] using hp0
  obtain ⟨s1, v1, st1, ys1, t1, rfl, hp1, h1, rfl, ht1, rfl⟩ := peelTok h0 (by decide) rfl (by decide)
  have hm1 : t1 ∈ full := by rw [hi.all]; simp
  obtain ⟨hl1, hc1, hsp1, hv1⟩ := E.word hm1 ht1
  rw [hv1] at hst
  obtain rfl : s1 = 8 := by simpa [preds, predsT] using hp1
  obtain ⟨s2, v2, st2, ys2, t2, rfl, hp2, h2, rfl, ht2, rfl⟩ := peelTok h1 (by decide) rfl (by decide)
  have hm2 : t2 ∈ full := by rw [hi.all]; simp
  obtain ⟨hc2, hsp2⟩ := E.sym hm2 ht2
  obtain ⟨q, hq⟩ := leafQ_below (cfg := cfg) (F := cur p.fields) (inc := false) true hl1
  exact reduced hi [_, _, _] (F' := p.fields) (res := p.result) (ys1 := [t2] ++ [t1] ++ [t0]) hst h2 (by simp) rfl rfl (by decide)
    ((rangeActHi true (read_ok (by have := hi.num; have := hi.one; simp [hc0, hc1, hc2] at *; omega)) hl1).trans
      (by rw [hq]; rfl)) ⟨rfl, .leaf (.below t1.text false true), by simp [QExp.written, QLeaf.written, hsp0, hsp1, hsp2], by rw [QExp.meant, lang_leaf hq]⟩ (goto_of hp2 (by decide)) [56, 33, 8] rfl 0
    (Nat.zero_le _) (by decide) (fun h => absurd h (by decide))

theorem red45 (E : Env cfg full) (hi : Inv cfg qlen full p ys las zs) (hst : p.stack = (55, v) :: st) :
    RedGood cfg qlen full p las zs 45 := by
  have h := hi.stk
  rw [hst] at h
  obtain ⟨s0, v0, st0, ys0, t0, rfl, hp0, h0, rfl, ht0, rfl⟩ := peelTok h (by decide) rfl (by decide)
  have hm0 : t0 ∈ full := by rw [hi.all]; simp
  obtain ⟨hc0, hsp0⟩ := E.sym hm0 ht0
  obtain rfl : s0 = 33 := by simpa [preds, predsT] using hp0
  obtain ⟨s1, v1, st1, ys1, t1, rfl, hp1, h1, rfl, ht1, rfl⟩ := peelTok h0 (by decide) rfl (by decide)
  have hm1 : t1 ∈ full := by rw [hi.all]; simp
  obtain ⟨hl1, hc1, hsp1, hv1⟩ := E.word hm1 ht1
  rw [hv1] at hst
  obtain rfl : s1 = 8 := by simpa [preds, predsT] using hp1
  obtain ⟨s2, v2, st2, ys2, t2, rfl, hp2, h2, rfl, ht2, rfl⟩ := peelTok h1 (by decide) rfl (by decide)
  have hm2 : t2 ∈ full := by rw [hi.all]; simp
  obtain ⟨hc2, hsp2⟩ := E.sym hm2 ht2
  obtain ⟨q, hq⟩ := leafQ_below (cfg := cfg) (F := cur p.fields) (inc := true) true hl1
  exact reduced hi [_, _, _] (F' := p.fields) (res := p.result) (ys1 := [t2] ++ [t1] ++ [t0]) hst h2 (by simp) rfl rfl (by decide)
    ((rangeActHi true (read_ok (by have := hi.num; have := hi.one; simp [hc0, hc1, hc2] at *; omega)) hl1).trans
      (by rw [hq]; rfl)) ⟨rfl, .leaf (.below t1.text true true), by simp [QExp.written, QLeaf.written, hsp0, hsp1, hsp2], by rw [QExp.meant, lang_leaf hq]⟩ (goto_of hp2 (by decide)) [55, 33, 8] rfl 0
    (Nat.zero_le _) (by decide) (fun h => absurd h (by decide))

theorem red46 (E : Env cfg full) (hi : Inv cfg qlen full p ys las zs) (hst : p.stack = (60, v) :: st) :
    RedGood cfg qlen full p las zs 46 := by
  have h := hi.stk
  rw [hst] at h
  obtain ⟨s0, v0, st0, ys0, t0, rfl, hp0, h0, rfl, ht0, rfl⟩ := peelTok h (by decide) rfl (by decide)
  have hm0 : t0 ∈ full := by rw [hi.all]; simp
  obtain ⟨hc0, hsp0⟩ := E.sym hm0 ht0
  obtain rfl : s0 = 37 := by simpa [preds, predsT] using hp0
  obtain ⟨s1, v1, st1, ys1, t1, rfl, hp1, h1, rfl, ht1, rfl⟩ := peelTok h0 (by decide) rfl (by decide)
  have hm1 : t1 ∈ full := by rw [hi.all]; simp
  obtain ⟨hl1, hc1, hsp1, hv1⟩ := E.word hm1 ht1
  rw [hv1] at hst
  obtain rfl : s1 = 10 := by simpa [preds, predsT] using hp1
  obtain ⟨s2, v2, st2, ys2, t2, rfl, hp2, h2, rfl, ht2, rfl⟩ := peelTok h1 (by decide) rfl (by decide)
  have hm2 : t2 ∈ full := by rw [hi.all]; simp
  obtain ⟨hc2, hsp2⟩ := E.sym hm2 ht2
  obtain ⟨q, hq⟩ := leafQ_above (cfg := cfg) (F := cur p.fields) (inc := true) true hl1
  exact reduced hi [_, _, _] (F' := p.fields) (res := p.result) (ys1 := [t2] ++ [t1] ++ [t0]) hst h2 (by simp) rfl rfl (by decide)
    ((rangeActLo true (read_ok (by have := hi.num; have := hi.one; simp [hc0, hc1, hc2] at *; omega)) hl1).trans
      (by rw [hq]; rfl)) ⟨rfl, .leaf (.above t1.text true true), by simp [QExp.written, QLeaf.written, hsp0, hsp1, hsp2], by rw [QExp.meant, lang_leaf hq]⟩ (goto_of hp2 (by decide)) [60, 37, 10] rfl 0
    (Nat.zero_le _) (by decide) (fun h => absurd h (by decide))

theorem red47 (E : Env cfg full) (hi : Inv cfg qlen full p ys las zs) (hst : p.stack = (62, v) :: st) :
    RedGood cfg qlen full p las zs 47 := by
  have h := hi.stk
  rw [hst] at h
  obtain ⟨s0, v0, st0, ys0, t0, rfl, hp0, h0, rfl, ht0, rfl⟩ := peelTok h (by decide) rfl (by decide)
  have hm0 : t0 ∈ full := by rw [hi.all]; simp
  obtain ⟨hc0, hsp0⟩ := E.sym hm0 ht0
  obtain rfl : s0 = 38 := by simpa [preds, predsT] using hp0
  obtain ⟨s1, v1, st1, ys1, t1, rfl, hp1, h1, rfl, ht1, rfl⟩ := peelTok h0 (by decide) rfl (by decide)
  have hm1 : t1 ∈ full := by rw [hi.all]; simp
  obtain ⟨hl1, hc1, hsp1, hv1⟩ := E.word hm1 ht1
  rw [hv1] at hst
  obtain rfl : s1 = 11 := by simpa [preds, predsT] using hp1
  obtain ⟨s2, v2, st2, ys2, t2, rfl, hp2, h2, rfl, ht2, rfl⟩ := peelTok h1 (by decide) rfl (by decide)
  have hm2 : t2 ∈ full := by rw [hi.all]; simp
  obtain ⟨hc2, hsp2⟩ := E.sym hm2 ht2
  obtain ⟨q, hq⟩ := leafQ_above (cfg := cfg) (F := cur p.fields) (inc := false) true hl1
  exact reduced hi [_, _, _] (F' := p.fields) (res := p.result) (ys1 := [t2] ++ [t1] ++ [t0]) hst h2 (by simp) rfl rfl (by decide)
    ((rangeActLo true (read_ok (by have := hi.num; have := hi.one; simp [hc0, hc1, hc2] at *; omega)) hl1).trans
      (by rw [hq]; rfl)) ⟨rfl, .leaf (.above t1.text false true), by simp [QExp.written, QLeaf.written, hsp0, hsp1, hsp2], by rw [QExp.meant, lang_leaf hq]⟩ (goto_of hp2 (by decide)) [62, 38, 11] rfl 0
    (Nat.zero_le _) (by decide) (fun h => absurd h (by decide))

theorem red48 (E : Env cfg full) (hi : Inv cfg qlen full p ys las zs) (hst : p.stack = (33, v) :: st) :
    RedGood cfg qlen full p las zs 48 := by
  have h := hi.stk
  rw [hst] at h
  obtain ⟨s0, v0, st0, ys0, t0, rfl, hp0, h0, rfl, ht0, rfl⟩ := peelTok h (by decide) rfl (by decide)
  have hm0 : t0 ∈ full := by rw [hi.all]; simp
  obtain ⟨hl0, hc0, hsp0, hv0⟩ := E.word hm0 ht0
  rw [hv0] at hst
  obtain rfl : s0 = 8 := by simpa [preds, predsT] using hp0
  obtain ⟨s1, v1, st1, ys1, t1, rfl, hp1, h1, rfl, ht1, rfl⟩ := peelTok h0 (by decide) rfl (by decide)
  have hm1 : t1 ∈ full := by rw [hi.all]; simp
  obtain ⟨hc1, hsp1⟩ := E.sym hm1 ht1
  obtain ⟨q, hq⟩ := leafQ_below (cfg := cfg) (F := cur p.fields) (inc := false) false hl0
  exact reduced hi [_, _] (F' := p.fields) (res := p.result) (ys1 := [t1] ++ [t0]) hst h1 (by simp) rfl rfl (by decide)
    ((rangeActHi false (read_ok (by have := hi.num; have := hi.one; simp [hc0, hc1] at *; omega)) hl0).trans
      (by rw [hq]; rfl)) ⟨rfl, .leaf (.below t0.text false false), by simp [QExp.written, QLeaf.written, hsp0, hsp1], by rw [QExp.meant, lang_leaf hq]⟩ (goto_of hp1 (by decide)) [33, 8] rfl 0
    (Nat.zero_le _) (by decide) (fun h => absurd h (by decide))

theorem red49 (E : Env cfg full) (hi : Inv cfg qlen full p ys las zs) (hst : p.stack = (57, v) :: st) :
    RedGood cfg qlen full p las zs 49 := by
  have h := hi.stk
  rw [hst] at h
  obtain ⟨s0, v0, st0, ys0, t0, rfl, hp0, h0, rfl, ht0, rfl⟩ := peelTok h (by decide) rfl (by decide)
  have hm0 : t0 ∈ full := by rw [hi.all]; simp
  obtain ⟨hl0, hc0, hsp0, hv0⟩ := E.word hm0 ht0
  rw [hv0] at hst
  obtain rfl : s0 = 34 := by simpa [preds, predsT] using hp0
  obtain ⟨s1, v1, st1, ys1, t1, rfl, hp1, h1, rfl, ht1, rfl⟩ := peelTok h0 (by decide) rfl (by decide)
  have hm1 : t1 ∈ full := by rw [hi.all]; simp
  obtain ⟨hc1, hsp1⟩ := E.sym hm1 ht1
  obtain rfl : s1 = 8 := by simpa [preds, predsT] using hp1
  obtain ⟨s2, v2, st2, ys2, t2, rfl, hp2, h2, rfl, ht2, rfl⟩ := peelTok h1 (by decide) rfl (by decide)
  have hm2 : t2 ∈ full := by rw [hi.all]; simp
  obtain ⟨hc2, hsp2⟩ := E.sym hm2 ht2
  obtain ⟨q, hq⟩ := leafQ_below (cfg := cfg) (F := cur p.fields) (inc := true) false hl0
  exact reduced hi [_, _, _] (F' := p.fields) (res := p.result) (ys1 := [t2] ++ [t1] ++ [t0]) hst h2 (by simp) rfl rfl (by decide)
    ((rangeActHi false (read_ok (by have := hi.num; have := hi.one; simp [hc0, hc1, hc2] at *; omega)) hl0).trans
      (by rw [hq]; rfl)) ⟨rfl, .leaf (.below t0.text true false), by simp [QExp.written, QLeaf.written, hsp0, hsp1, hsp2], by rw [QExp.meant, lang_leaf hq]⟩ (goto_of hp2 (by decide)) [57, 34, 8] rfl 0
    (Nat.zero_le _) (by decide) (fun h => absurd h (by decide))

theorem red50 (E : Env cfg full) (hi : Inv cfg qlen full p ys las zs) (hst : p.stack = (58, v) :: st) :
    RedGood cfg qlen full p las zs 50 := by
  have h := hi.stk
  rw [hst] at h
  obtain ⟨s0, v0, st0, ys0, t0, rfl, hp0, h0, rfl, ht0, rfl⟩ := peelTok h (by decide) rfl (by decide)
  have hm0 : t0 ∈ full := by rw [hi.all]; simp
  obtain ⟨hl0, hc0, hsp0, hv0⟩ := E.word hm0 ht0
  rw [hv0] at hst
  obtain rfl : s0 = 36 := by simpa [preds, predsT] using hp0
  obtain ⟨s1, v1, st1, ys1, t1, rfl, hp1, h1, rfl, ht1, rfl⟩ := peelTok h0 (by decide) rfl (by decide)
  have hm1 : t1 ∈ full := by rw [hi.all]; simp
  obtain ⟨hc1, hsp1⟩ := E.sym hm1 ht1
  obtain rfl : s1 = 9 := by simpa [preds, predsT] using hp1
  obtain ⟨s2, v2, st2, ys2, t2, rfl, hp2, h2, rfl, ht2, rfl⟩ := peelTok h1 (by decide) rfl (by decide)
  have hm2 : t2 ∈ full := by rw [hi.all]; simp
  obtain ⟨hc2, hsp2⟩ := E.sym hm2 ht2
  obtain ⟨q, hq⟩ := leafQ_above (cfg := cfg) (F := cur p.fields) (inc := true) false hl0
  exact reduced hi [_, _, _] (F' := p.fields) (res := p.result) (ys1 := [t2] ++ [t1] ++ [t0]) hst h2 (by simp) rfl rfl (by decide)
    ((rangeActLo false (read_ok (by have := hi.num; have := hi.one; simp [hc0, hc1, hc2] at *; omega)) hl0).trans
      (by rw [hq]; rfl)) ⟨rfl, .leaf (.above t0.text true false), by simp [QExp.written, QLeaf.written, hsp0, hsp1, hsp2], by rw [QExp.meant, lang_leaf hq]⟩ (goto_of hp2 (by decide)) [58, 36, 9] rfl 0
    (Nat.zero_le _) (by decide) (fun h => absurd h (by decide))

theorem red51 (E : Env cfg full) (hi : Inv cfg qlen full p ys las zs) (hst : p.stack = (35, v) :: st) :
    RedGood cfg qlen full p las zs 51 := by
  have h := hi.stk
  rw [hst] at h
  obtain ⟨s0, v0, st0, ys0, t0, rfl, hp0, h0, rfl, ht0, rfl⟩ := peelTok h (by decide) rfl (by decide)
  have hm0 : t0 ∈ full := by rw [hi.all]; simp
  obtain ⟨hl0, hc0, hsp0, hv0⟩ := E.word hm0 ht0
  rw [hv0] at hst
  obtain rfl : s0 = 9 := by simpa [preds, predsT] using hp0
  obtain ⟨s1, v1, st1, ys1, t1, rfl, hp1, h1, rfl, ht1, rfl⟩ := peelTok h0 (by decide) rfl (by decide)
  have hm1 : t1 ∈ full := by rw [hi.all]; simp
  obtain ⟨hc1, hsp1⟩ := E.sym hm1 ht1
  obtain ⟨q, hq⟩ := leafQ_above (cfg := cfg) (F := cur p.fields) (inc := false) false hl0
  exact reduced hi [_, _] (F' := p.fields) (res := p.result) (ys1 := [t1] ++ [t0]) hst h1 (by simp) rfl rfl (by decide)
    ((rangeActLo false (read_ok (by have := hi.num; have := hi.one; simp [hc0, hc1] at *; omega)) hl0).trans
      (by rw [hq]; rfl)) ⟨rfl, .leaf (.above t0.text false false), by simp [QExp.written, QLeaf.written, hsp0, hsp1], by rw [QExp.meant, lang_leaf hq]⟩ (goto_of hp1 (by decide)) [35, 9] rfl 0
    (Nat.zero_le _) (by decide) (fun h => absurd h (by decide))

end

end Ferret.QP
