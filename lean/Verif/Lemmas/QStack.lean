import Verif.Lemmas.QLeaf

/-!
The invariant of the loop of yyparse, and that every reduction keeps it.
-/

namespace Ferret.QP
open Ferret.Spec

/-! ### The automaton -/

/-- yystos, q_parser.c 703–713: the symbol read last in each state. -/
def stosT : List Nat :=
  [0, 3, 4, 8, 9, 13, 16, 18, 19, 20, 21, 24, 27, 28, 29, 30, 31, 32, 33, 34, 38, 39, 41, 15, 30, 30, 14, 28, 36,
   3, 18, 19, 40, 3, 25, 3, 25, 3, 3, 0, 6, 7, 29, 12, 10, 17, 3, 14, 10, 15, 20, 3, 17, 18, 19, 22, 23, 3, 3, 3,
   20, 3, 20, 29, 29, 3, 31, 3, 31, 3, 3, 15, 20, 22, 23, 22, 23, 35, 37, 3]

def stos (s : Nat) : Nat := stosT.getD s 0

/-- The states where clauses may begin, with or without a sign, and those where queries may. -/
def base6 : List Nat := [0, 5, 13, 27, 40, 41]
def base8 : List Nat := [0, 3, 4, 5, 13, 27, 40, 41]
def base10 : List Nat := [0, 3, 4, 5, 13, 27, 40, 41, 44, 48]

/-- The states that may lie under each state on the stack. -/
def predsT : List (List Nat) :=
  [[], base10, base10, base6, base6, base10, base10, base10, base10, base10, base10, base10, [0], [0], [0, 5],
   base6, base8, base10, base10, base10, base10, base10, base10, [1], [3], [4], [5], [5], [6], [7], [7], [7], [7],
   [8], [8], [9], [9], [10], [11], [], [13, 27], [13, 27], [13, 27], [16], [20], [20], [23], [27], [28], [30],
   [31], [32], [32], [32], [32], [33], [33], [34], [36], [37], [37], [38], [38], [40], [41], [43], [44], [45],
   [48], [49], [52], [53], [54], [59], [59], [61], [61], [66], [68], [71]]

def preds (s : Nat) : List Nat := predsT.getD s []

/-- The state in which a rule is reduced. -/
def topT : List Nat :=
  [80, 80, 0, 13, 14, 64, 63, 42, 25, 24, 15, 16, 65, 17, 26, 47, 19, 21, 22, 18, 1, 46, 23, 2, 66, 77, 6, 68, 78,
   1, 67, 53, 79, 30, 69, 29, 50, 51, 72, 70, 73, 74, 75, 76, 56, 55, 60, 62, 33, 57, 58, 35]

def topOf (r : Nat) : Nat := topT.getD r 80

/-- Weights of symbols on the stack: every reduction makes the sum smaller. -/
def wt (sym : Nat) : Nat :=
  if sym = 27 then 0 else if sym = 28 then 1 else if sym = 29 then 2 else if sym = 30 then 3
  else if sym = 31 then 4 else if sym = 35 ∨ sym = 36 ∨ sym = 37 then 1 else if sym = 38 then 9
  else if sym = 40 then 5 else if sym ≤ 4 then 10 else if sym ≤ 25 then 5 else 8

/-- What the states in which an empty rule is reduced weigh more while they are on top. -/
def bonus (s : Nat) : Nat := if s = 0 ∨ s = 6 ∨ s = 66 ∨ s = 68 then 3 else 0

/-- The reduction to a symbol leads from a state on. -/
def gotoOk (s lhs : Nat) : Bool :=
  match goto s lhs with
  | some t => decide (t ≠ 0 ∧ (preds t).contains s ∧ stos t = lhs ∧ 26 ≤ lhs ∧
      bonus t ≤ (if lhs = 31 then 3 else 0))
  | none => false

theorem goto_of {s0 s lhs : Nat} (h : s0 ∈ preds s) (hk : (preds s).all (fun b => gotoOk b lhs) = true) :
    gotoOk s0 lhs = true := List.all_eq_true.1 hk s0 h

/-- The entry of a state in yypact and yydefact. -/
def pactOf (s : Nat) : Int := yypact.getD s (-30)
def defOf (s : Nat) : Nat := yydefact.getD s 0

theorem pactOf_eq {s : Nat} (h : s < 80) : yypact[s]? = some (pactOf s) := by
  have : s < yypact.length := h
  simp [pactOf, List.getElem?_eq_getElem this]

theorem defOf_eq {s : Nat} (h : s < 80) : yydefact[s]? = some (defOf s) := by
  have : s < yydefact.length := h
  simp [defOf, List.getElem?_eq_getElem this]

/-- What a shift leads to. -/
theorem shift_ok : ∀ s, s < 80 → pactOf s ≠ -30 → ∀ k, k < 26 →
    (action (pactOf s) k).all (fun y => decide (0 < y → y ≠ 39 →
      (preds y.toNat).contains s = true ∧ stos y.toNat = k ∧ y.toNat ≠ 0 ∧ 1 ≤ k ∧ k ≠ 2)) = true := by
  decide +kernel

/-- Where the parser accepts. -/
theorem accept_ok : ∀ s, s < 80 → pactOf s ≠ -30 → ∀ k, k < 26 → action (pactOf s) k = some 39 →
    s = 12 ∧ k = 0 := by decide +kernel

/-- Which rule is reduced where. -/
theorem default_ok : ∀ s, s < 80 → s ≠ 39 → defOf s ≠ 0 → 2 ≤ defOf s ∧ defOf s ≤ 51 ∧ topOf (defOf s) = s := by
  decide +kernel

theorem negative_ok : ∀ s, s < 80 → pactOf s ≠ -30 → ∀ k, k < 26 →
    (action (pactOf s) k).all (fun y => decide (y < 0 → y = -29 ∧ s = 1)) = true := by decide +kernel

theorem translate_lt (t : Tok) : translate t < 26 := by
  have ite_lt : ∀ {c : Prop} [Decidable c] {a b : Nat}, a < 26 → b < 26 → (if c then a else b) < 26 := by
    intro c _ a b ha hb
    split
    · exact ha
    · exact hb
  cases t with
  | ch c =>
    exact ite_lt (by decide) (ite_lt (by decide) (ite_lt (by decide) (ite_lt (by decide) (ite_lt (by decide)
      (ite_lt (by decide) (ite_lt (by decide) (ite_lt (by decide) (ite_lt (by decide) (ite_lt (by decide)
      (ite_lt (by decide) (ite_lt (by decide) (ite_lt (by decide) (ite_lt (by decide) (ite_lt (by decide)
      (by decide)))))))))))))))
  | _ => decide

theorem preds_lt : ∀ s, s < 80 → ∀ s0 ∈ preds s, s0 < 80 := by decide +kernel

theorem preds_top {s s0 : Nat} (h : s0 ∈ preds s) : s < 80 := by
  rcases Nat.lt_or_ge s 80 with h' | h'
  · exact h'
  · unfold preds at h
    rw [List.getD_eq_getElem?_getD, List.getElem?_eq_none (by simpa [predsT] using h')] at h
    cases h

/-! ### What the stack stands for -/

/-- The fields in force. -/
def cur (F : List (List Fld)) : List Fld := F.headD []

/-- A symbol on the stack, read with the tokens `ys` after `n` calls of get_word, with the value `v`; the field
stack was `F` before it and is `F'` after it. -/
def Sem (cfg : Cfg) (F : List (List Fld)) (sym n : Nat) (ys : List LexTok) (v : Val) (F' : List (List Fld)) :
    Prop :=
  if sym ≤ 25 then ∃ t, ys = [t] ∧ translate t.tok = sym ∧ v = tokVal t (n + callN t) ∧ F' = F
  else match sym with
  | 27 => F' = F ∧ ((ys = [] ∧ v = .q none) ∨ ∃ T : QClauses, T.written = ys.map LexTok.spec ∧
      v = .q (boolOf (T.meant (lang cfg) (cur F))))
  | 28 => F' = F ∧ ∃ T : QClauses, T.written = ys.map LexTok.spec ∧ v = .clss (T.meant (lang cfg) (cur F))
  | 29 => F' = F ∧ ∃ C : QClause, C.written = ys.map LexTok.spec ∧ v = .cls (C.meant (lang cfg) (cur F))
  | 30 => F' = F ∧ ∃ (e : QExp) (b : Option QWord), e.written ++ writtenBoost b = ys.map LexTok.spec ∧
      v = .q ((e.meant (lang cfg) (cur F)).map (boosted b))
  | 35 => ys = [] ∧ F' = F.tail
  | 36 => ys = [] ∧ F' = cfg.allFields :: F
  | 37 => ys = [] ∧ F' = F.tail
  | 38 => ∃ f fs, [QTok.word f] ++ fs.flatMap (fun g => [.sym '|', .word g]) = ys.map LexTok.spec ∧
      F' = (lang cfg).fields (f :: fs) :: F
  | 40 => F' = F ∧ ∃ first spots ph, writtenFirst first ++ spots.flatMap QSpot.written = ys.map LexTok.spec ∧
      phraseOf first spots = .ok ph ∧ v = .phrase ph
  | _ => F' = F ∧ ∃ e : QExp, e.written = ys.map LexTok.spec ∧ v = .q (e.meant (lang cfg) (cur F))

/-- The stack is a path of the automaton, and stands for the tokens read. -/
inductive Stk (cfg : Cfg) : List (Nat × Val) → List LexTok → List (List Fld) → Prop
  | base : Stk cfg [(0, .none)] [] [cfg.defFields]
  | push {s0 v0 st ys F s ys1 v F'} : Stk cfg ((s0, v0) :: st) ys F → s0 ∈ preds s → s ≠ 0 →
      Sem cfg F (stos s) (calls ys) ys1 v F' → Stk cfg ((s, v) :: (s0, v0) :: st) (ys ++ ys1) F'

theorem Stk.lt {cfg : Cfg} {s : Nat} {v : Val} {st : List (Nat × Val)} {ys : List LexTok}
    {F : List (List Fld)} (h : Stk cfg ((s, v) :: st) ys F) : s < 80 := by
  cases h with
  | base => decide
  | push h hp hs hsem => exact preds_top hp

theorem Stk.ne {cfg : Cfg} {s : Nat} {v : Val} {st : List (Nat × Val)} {ys : List LexTok}
    {F : List (List Fld)} (h : Stk cfg ((s, v) :: st) ys F) : s ≠ 39 := by
  cases h with
  | base => decide
  | push h hp hs hsem => rintro rfl; cases hp

theorem Stk.bottom {cfg : Cfg} {v : Val} {st : List (Nat × Val)} {ys : List LexTok} {F : List (List Fld)}
    (h : Stk cfg ((0, v) :: st) ys F) : ys = [] ∧ st = [] ∧ F = [cfg.defFields] := by
  cases h with
  | base => exact ⟨rfl, rfl, rfl⟩
  | push h hp hs hsem => exact absurd rfl hs

theorem peel {cfg : Cfg} {s : Nat} {v : Val} {st : List (Nat × Val)} {ys : List LexTok} {F : List (List Fld)}
    (h : Stk cfg ((s, v) :: st) ys F) (hs : s ≠ 0) :
    ∃ s0 v0 st' ys0 ys1 F0, st = (s0, v0) :: st' ∧ s0 ∈ preds s ∧ Stk cfg ((s0, v0) :: st') ys0 F0 ∧
      ys = ys0 ++ ys1 ∧ Sem cfg F0 (stos s) (calls ys0) ys1 v F := by
  cases h with
  | base => exact absurd rfl hs
  | push h hp _ hsem => exact ⟨_, _, _, _, _, _, rfl, hp, h, rfl, hsem⟩

theorem peelTok {cfg : Cfg} {s k : Nat} {v : Val} {st : List (Nat × Val)} {ys : List LexTok}
    {F : List (List Fld)} (h : Stk cfg ((s, v) :: st) ys F) (hs : s ≠ 0) (hk : stos s = k)
    (h1 : k ≠ 2 ∧ k ≤ 25) :
    ∃ s0 v0 st' ys0 t, st = (s0, v0) :: st' ∧ s0 ∈ preds s ∧ Stk cfg ((s0, v0) :: st') ys0 F ∧
      ys = ys0 ++ [t] ∧ t.tok = untranslate k ∧ v = tokVal t (calls ys0 + callN t) := by
  obtain ⟨s0, v0, st', ys0, ys1, F0, e1, hp, h2, e2, hsem⟩ := peel h hs
  unfold Sem at hsem
  rw [hk, if_pos h1.2] at hsem
  obtain ⟨t, rfl, e3, e4, rfl⟩ := hsem
  exact ⟨s0, v0, st', ys0, t, e1, hp, h2, e2, untranslate_eq e3 h1.1, e4⟩

/-- What is known at every turn of the loop: `ys` are the tokens on the stack, `las` the look-ahead token if
there is one, `zs` the tokens not read yet. -/
structure Inv (cfg : Cfg) (qlen : Nat) (full : List LexTok) (p : PS) (ys las zs : List LexTok) : Prop where
  stk : Stk cfg p.stack ys p.fields
  all : full = ys ++ las ++ zs
  num : p.calls = calls ys + calls las
  la : (p.la = none ∧ las = [] ∧ Lexed cfg.keywords qlen p.rest zs) ∨
    (p.la = some (.eof, .none) ∧ las = [] ∧ zs = []) ∨
    (∃ t, p.la = some (t.tok, tokVal t p.calls) ∧ las = [t] ∧ Lexed cfg.keywords qlen p.rest zs)
  top : ∀ s v st, p.stack = (s, v) :: st → stos s ≤ 25 → yypact[s]? = some (-30) → las = []
  res : ∀ v st, p.stack = (12, v) :: st → v = .q p.result

theorem Inv.one {cfg : Cfg} {qlen : Nat} {full : List LexTok} {p : PS} {ys las zs : List LexTok}
    (h : Inv cfg qlen full p ys las zs) : calls las ≤ 1 := by
  rcases h.la with ⟨-, rfl, -⟩ | ⟨-, rfl, -⟩ | ⟨t, -, rfl, -⟩
  · simp
  · simp
  · simpa using callN_le t

def wsum (st : List (Nat × Val)) : Nat := (st.map (fun e => wt (stos e.1))).sum

/-- What every turn makes smaller. -/
def phi (st : List (Nat × Val)) (las zs : List LexTok) : Nat :=
  20 * (las.length + zs.length) + wsum st + bonus ((st.head?.map Prod.fst).getD 0)

/-- What a turn may lead to. -/
def OutGood (cfg : Cfg) (qlen : Nat) (full : List LexTok) (n : Nat) : Out → Prop
  | .next p => ∃ ys las zs, Inv cfg qlen full p ys las zs ∧ phi p.stack las zs < n
  | .accept p => p.fields = [cfg.defFields] ∧ ((full = [] ∧ p.result = none) ∨
      ∃ T : QClauses, T.written = full.map LexTok.spec ∧ p.result = boolOf (T.meant (lang cfg) cfg.defFields))
  | .error _ => True
  | .full _ => True
  | .failed _ => ¬ QOrdered cfg.inOrder cfg.lower (full.map LexTok.spec)

/-- A reduction that keeps the invariant. -/
def RedGood (cfg : Cfg) (qlen : Nat) (full : List LexTok) (p : PS) (las zs : List LexTok) (r : Nat) : Prop :=
  ∃ out, reduce cfg qlen p r = .ok out ∧ OutGood cfg qlen full (phi p.stack las zs) out

theorem reduce_act {cfg : Cfg} {qlen : Nat} {p : PS} {r lhs : Nat} {hs : List (Nat × Val)} {s0 : Nat} {v0 : Val}
    {st : List (Nat × Val)} (hst : p.stack = hs ++ (s0, v0) :: st) (hlen : yyr2[r]? = some hs.length)
    (hlhs : yyr1[r]? = some lhs) (hr : r ≠ 0) {v : Val} {p' : PS} {t : Nat}
    (hact : act cfg qlen r (hs.reverse.map Prod.snd) p = .ok (v, p')) (hg : goto s0 lhs = some t) :
    reduce cfg qlen p r = .ok (push { p' with stack := (s0, v0) :: st } t v) := by
  unfold reduce
  rw [if_neg hr, hlen, hlhs]
  simp only [Res.ofOption, Res.ok_bind]
  rw [if_neg (by rw [hst]; simp)]
  have e1 : p.stack.take hs.length = hs := by rw [hst]; simp
  have e2 : p.stack.drop hs.length = (s0, v0) :: st := by rw [hst]; simp
  rw [e1, e2, hact]
  simp only [hg, Res.ofOption, Res.ok_bind]
  rfl

theorem reduce_raise {cfg : Cfg} {qlen : Nat} {p : PS} {r lhs : Nat} {hs : List (Nat × Val)} {s0 : Nat} {v0 : Val}
    {st : List (Nat × Val)} (hst : p.stack = hs ++ (s0, v0) :: st) (hlen : yyr2[r]? = some hs.length)
    (hlhs : yyr1[r]? = some lhs) (hr : r ≠ 0) {e : Err}
    (hact : act cfg qlen r (hs.reverse.map Prod.snd) p = .raise e) :
    reduce cfg qlen p r = .ok (.failed p) := by
  unfold reduce
  rw [if_neg hr, hlen, hlhs]
  simp only [Res.ofOption, Res.ok_bind]
  rw [if_neg (by rw [hst]; simp)]
  have e1 : p.stack.take hs.length = hs := by rw [hst]; simp
  rw [e1, hact]

theorem reduced {cfg : Cfg} {qlen : Nat} {full : List LexTok} {p : PS} {ys las zs : List LexTok}
    (hi : Inv cfg qlen full p ys las zs) {r lhs : Nat} (hs : List (Nat × Val)) {s0 : Nat} {v0 : Val}
    {st : List (Nat × Val)} {ys0 ys1 : List LexTok} {F0 F' : List (List Fld)} {v : Val} {res : Option Qry}
    (hst : p.stack = hs ++ (s0, v0) :: st) (hstk : Stk cfg ((s0, v0) :: st) ys0 F0) (hys : ys = ys0 ++ ys1)
    (hlen : yyr2[r]? = some hs.length) (hlhs : yyr1[r]? = some lhs) (hr : r ≠ 0)
    (hact : act cfg qlen r (hs.reverse.map Prod.snd) p = .ok (v, { p with fields := F', result := res }))
    (hsem : Sem cfg F0 lhs (calls ys0) ys1 v F') (hg : gotoOk s0 lhs = true)
    (ss : List Nat) (hss : hs.map Prod.fst = ss) (b : Nat) (hb : b ≤ if hs.isEmpty then bonus s0 else 0)
    (hW : wt lhs + (if lhs = 31 then 3 else 0) < (ss.map (fun s => wt (stos s))).sum + b)
    (h27 : lhs = 27 → v = .q res) : RedGood cfg qlen full p las zs r := by
  have hW : wt lhs + (if lhs = 31 then 3 else 0) < wsum hs + (if hs.isEmpty then bonus s0 else 0) := by
    rw [← hss, List.map_map] at hW
    exact Nat.lt_of_lt_of_le hW (Nat.add_le_add_left hb _)
  unfold gotoOk at hg
  split at hg
  case h_2 => cases hg
  rename_i t ht
  obtain ⟨g1, g2, g3, g4, g5⟩ := of_decide_eq_true hg
  refine ⟨_, reduce_act hst hlen hlhs hr hact ht, ?_⟩
  have hphi : phi ((t, v) :: (s0, v0) :: st) las zs < phi p.stack las zs := by
    unfold phi
    rw [hst]
    simp only [wsum, List.map_cons, List.sum_cons, List.map_append, List.sum_append, List.head?_cons,
      Option.map_some, Option.getD_some, g3] at hW ⊢
    cases hs with
    | nil => simp at hW ⊢; omega
    | cons e hs => simp at hW ⊢; omega
  unfold push
  simp only []
  split
  · refine ⟨ys0 ++ ys1, las, zs, ?_, hphi⟩
    refine ⟨?_, ?_, ?_, ?_, ?_, ?_⟩
    · exact .push hstk (List.contains_iff_mem.1 g2) g1 (by rw [g3]; exact hsem)
    · rw [← hys]; exact hi.all
    · rw [← hys]; exact hi.num
    · exact hi.la
    · intro s v' st' e h25 _
      simp only [List.cons.injEq, Prod.mk.injEq] at e
      rw [← e.1.1, g3] at h25
      omega
    · intro v' st' e
      simp only [List.cons.injEq, Prod.mk.injEq] at e
      rw [e.1.1] at g3
      rw [← e.1.2]
      exact h27 (by rw [← g3]; rfl)
  · trivial

end Ferret.QP
