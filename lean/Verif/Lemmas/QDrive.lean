import Verif.Lemmas.QRun

/-!
Driving the query parser: what its turns do in given states, whether or not the next token was read already.
-/

namespace Ferret.QP
open Ferret.Spec

/-- The parser with a stack, fields in force and a result, `n` calls of get_word having been made for the tokens
read, and `ts` the tokens that follow, the first of which may be the look-ahead token. -/
structure At (cfg : Cfg) (qlen : Nat) (p : PS) (stk : List (Nat × Val)) (F : List (List Fld)) (res : Option Qry)
    (n : Nat) (ts : List LexTok) : Prop where
  stack : p.stack = stk
  fields : p.fields = F
  result : p.result = res
  la : (p.la = none ∧ p.calls = n ∧ Lexed cfg.keywords qlen p.rest ts) ∨
    (p.la = some (.eof, .none) ∧ p.calls = n ∧ ts = []) ∨
    (∃ t ts', ts = t :: ts' ∧ p.la = some (t.tok, tokVal t p.calls) ∧ p.calls = n + callN t ∧
      Lexed cfg.keywords qlen p.rest ts')

/-- Parsing goes on from one state of the parser to another. -/
def Reaches (cfg : Cfg) (qlen : Nat) (p p' : PS) : Prop :=
  ∃ k, ∀ m, parse cfg qlen (m + k) p = parse cfg qlen m p'

theorem Reaches.refl {cfg : Cfg} {qlen : Nat} (p : PS) : Reaches cfg qlen p p := ⟨0, fun _ => rfl⟩

theorem Reaches.trans {cfg : Cfg} {qlen : Nat} {p q r : PS} (h1 : Reaches cfg qlen p q)
    (h2 : Reaches cfg qlen q r) : Reaches cfg qlen p r := by
  obtain ⟨k1, e1⟩ := h1
  obtain ⟨k2, e2⟩ := h2
  refine ⟨k2 + k1, fun m => ?_⟩
  rw [← Nat.add_assoc, e1, e2]

theorem Reaches.step {cfg : Cfg} {qlen : Nat} {p p' : PS} (h : step cfg qlen p = .ok (.next p')) :
    Reaches cfg qlen p p' := ⟨1, fun m => by rw [parse, h]; rfl⟩

/-- The parser gets there. -/
def Go (cfg : Cfg) (qlen : Nat) (p : PS) (stk : List (Nat × Val)) (F : List (List Fld)) (res : Option Qry)
    (n : Nat) (ts : List LexTok) : Prop := ∃ p', Reaches cfg qlen p p' ∧ At cfg qlen p' stk F res n ts

/-- The first token of what follows. -/
def headTok : List LexTok → Tok
  | [] => .eof
  | t :: _ => t.tok

/-- The state after a token. -/
def shiftTo (s k : Nat) : Option Nat :=
  if s < 80 ∧ pactOf s ≠ -30 then
    match action (pactOf s) k with
    | some y => if 0 < y ∧ y ≠ 39 then some y.toNat else none
    | none => none
  else none

/-- The rule reduced before a token, and the rule reduced without reading one. -/
def ruleAt (s k : Nat) : Option Nat :=
  if s < 80 ∧ pactOf s ≠ -30 then
    match action (pactOf s) k with
    | some y => if y < 0 ∧ y ≠ -30 then some (-y).toNat else none
    | none => some (defOf s)
  else none

def ruleOf (s : Nat) : Option Nat := if s < 80 ∧ pactOf s = -30 then some (defOf s) else none

section
variable {cfg : Cfg} {qlen : Nat} {p : PS} {stk : List (Nat × Val)} {F : List (List Fld)} {res : Option Qry}
  {n : Nat} {ts : List LexTok}

theorem At.calls_le (h : At cfg qlen p stk F res n ts) : p.calls ≤ n + 1 := by
  rcases h.la with ⟨-, h, -⟩ | ⟨-, h, -⟩ | ⟨t, ts', -, -, h, -⟩
  · omega
  · omega
  · have := callN_le t; omega

theorem At.go (h : At cfg qlen p stk F res n ts) : Go cfg qlen p stk F res n ts := ⟨p, .refl p, h⟩

theorem Go.then {p' : PS} (h1 : Reaches cfg qlen p p') (h2 : Go cfg qlen p' stk F res n ts) :
    Go cfg qlen p stk F res n ts := by
  obtain ⟨q, r, a⟩ := h2
  exact ⟨q, h1.trans r, a⟩

theorem At.look (h : At cfg qlen p stk F res n ts) :
    ∃ u p', lookahead cfg qlen p = .ok (headTok ts, u, p') ∧ At cfg qlen p' stk F res n ts ∧
      ∀ t ts', ts = t :: ts' → u = tokVal t (n + callN t) ∧ p'.calls = n + callN t ∧
        Lexed cfg.keywords qlen p'.rest ts' := by
  rcases h.la with ⟨e1, e2, e3⟩ | ⟨e1, e2, e3⟩ | ⟨t, ts', e1, e2, e3, e4⟩
  · unfold lookahead
    rw [e1]
    cases e3 with
    | done h1 h2 =>
      have hc := (yylex_shaped h1).eof h2
      simp only [h1, Res.ok_bind, h2, hc, Res.pure_eq]
      exact ⟨_, _, rfl, ⟨h.stack, h.fields, h.result, Or.inr (Or.inl ⟨rfl, e2, rfl⟩)⟩, nofun⟩
    | more h1 h2 h3 =>
      rename_i t r ts
      simp only [h1, Res.ok_bind, Res.pure_eq]
      have hn : (if t.call = true then p.calls + 1 else p.calls) = n + callN t := by
        unfold callN
        rw [e2]
        split <;> rfl
      rw [hn]
      refine ⟨_, _, rfl, ⟨h.stack, h.fields, h.result, Or.inr (Or.inr ⟨t, ts, rfl, rfl, rfl, h3⟩)⟩, ?_⟩
      intro t' ts' e
      cases e
      exact ⟨rfl, rfl, h3⟩
  · unfold lookahead
    rw [e1]
    subst e3
    exact ⟨_, _, rfl, h, nofun⟩
  · unfold lookahead
    rw [e2]
    subst e1
    refine ⟨_, _, rfl, h, ?_⟩
    intro t' ts' e
    cases e
    exact ⟨by rw [e3], e3, e4⟩

/-- Shifting a token. -/
theorem At.shift {s : Nat} {v : Val} {st : List (Nat × Val)} {t : LexTok}
    (h : At cfg qlen p ((s, v) :: st) F res n (t :: ts)) {y : Nat} (hy : shiftTo s (translate t.tok) = some y)
    (hroom : st.length + 2 < 10000) :
    ∃ p', Reaches cfg qlen p p' ∧
      At cfg qlen p' ((y, tokVal t (n + callN t)) :: (s, v) :: st) F res (n + callN t) ts ∧
      p'.calls ≤ n + callN t := by
  unfold shiftTo at hy
  split at hy
  case isFalse => cases hy
  rename_i hs
  obtain ⟨u, p', e1, e2, e3⟩ := h.look
  obtain ⟨rfl, f2, f3⟩ := e3 t ts rfl
  cases ha : action (pactOf s) (translate t.tok) with
  | none => rw [ha] at hy; cases hy
  | some z =>
    rw [ha] at hy
    simp only [] at hy
    split at hy
    case isFalse => cases hy
    rename_i hz
    cases hy
    refine ⟨_, .step (p' := { p' with la := none, stack := (z.toNat, tokVal t (n + callN t)) :: p'.stack }) ?_,
      ⟨?_, e2.fields, e2.result, Or.inl ⟨rfl, f2, f3⟩⟩, Nat.le_of_eq f2⟩
    · unfold step
      rw [h.stack]
      simp only [pactOf_eq hs.1, defOf_eq hs.1, Res.ofOption, Res.ok_bind, if_neg hs.2, e1]
      have e4 : action (pactOf s) (translate (headTok (t :: ts))) = some z := ha
      rw [e4]
      simp only []
      rw [if_neg (by omega), if_neg (by omega), if_neg (by omega)]
      unfold push
      simp only []
      rw [if_pos (by rw [e2.stack]; simp only [List.length_cons, maxDepth]; omega)]
      rfl
    · show _ :: p'.stack = _
      rw [e2.stack]

theorem push_next {p : PS} {y : Nat} {v : Val} (h : p.stack.length + 1 < 10000) :
    push p y v = .next { p with stack := (y, v) :: p.stack } := by
  unfold push
  exact if_pos h

/-- A reduction that reads no token. -/
theorem At.red {s : Nat} {u : Val} {st' : List (Nat × Val)} (h : At cfg qlen p ((s, u) :: st') F res n ts) {r : Nat}
    (hr : ruleOf s = some r) {b : Nat} (hb : p.calls ≤ b) (hs : List (Nat × Val)) {s0 : Nat} {v0 : Val}
    {st : List (Nat × Val)} (he : (s, u) :: st' = hs ++ (s0, v0) :: st) {lhs : Nat}
    (hlen : yyr2[r]? = some hs.length) (hlhs : yyr1[r]? = some lhs) (hr0 : r ≠ 0) {g : Nat}
    (hg : goto s0 lhs = some g) {v : Val} {F' : List (List Fld)} {res' : Option Qry}
    (hact : ∀ p' : PS, p'.fields = F → p'.result = res → p'.calls ≤ b →
      act cfg qlen r (hs.reverse.map Prod.snd) p' = .ok (v, { p' with fields := F', result := res' }))
    (hroom : st.length + 2 < 10000) :
    ∃ p', Reaches cfg qlen p p' ∧ At cfg qlen p' ((g, v) :: (s0, v0) :: st) F' res' n ts ∧ p'.calls = p.calls := by
  unfold ruleOf at hr
  split at hr
  case isFalse => cases hr
  rename_i hsn
  cases hr
  refine ⟨{ p with fields := F', result := res', stack := (g, v) :: (s0, v0) :: st }, .step ?_,
    ⟨rfl, rfl, rfl, h.la⟩, rfl⟩
  unfold step
  rw [h.stack]
  simp only [pactOf_eq hsn.1, defOf_eq hsn.1, Res.ofOption, Res.ok_bind, if_pos hsn.2]
  rw [reduce_act (by rw [h.stack]; exact he) hlen hlhs hr0 (hact p h.fields h.result hb) hg]
  rw [push_next (by simpa using hroom)]

/-- A reduction before a token. -/
theorem At.redAt {s : Nat} {u : Val} {st' : List (Nat × Val)} (h : At cfg qlen p ((s, u) :: st') F res n ts) {r : Nat}
    (hr : ruleAt s (translate (headTok ts)) = some r) (hs : List (Nat × Val)) {s0 : Nat} {v0 : Val}
    {st : List (Nat × Val)} (he : (s, u) :: st' = hs ++ (s0, v0) :: st) {lhs : Nat}
    (hlen : yyr2[r]? = some hs.length) (hlhs : yyr1[r]? = some lhs) (hr0 : r ≠ 0) {g : Nat}
    (hg : goto s0 lhs = some g) {v : Val} {F' : List (List Fld)} {res' : Option Qry}
    (hact : ∀ p' : PS, p'.fields = F → p'.result = res → p'.calls ≤ n + 1 →
      act cfg qlen r (hs.reverse.map Prod.snd) p' = .ok (v, { p' with fields := F', result := res' }))
    (hroom : st.length + 2 < 10000) :
    Go cfg qlen p ((g, v) :: (s0, v0) :: st) F' res' n ts := by
  obtain ⟨w, p', e1, e2, -⟩ := h.look
  unfold ruleAt at hr
  split at hr
  case isFalse => cases hr
  rename_i hsn
  have hred : reduce cfg qlen p' r =
      .ok (.next { p' with fields := F', result := res', stack := (g, v) :: (s0, v0) :: st }) := by
    rw [reduce_act (by rw [e2.stack]; exact he) hlen hlhs hr0 (hact p' e2.fields e2.result e2.calls_le) hg]
    rw [push_next (by simpa using hroom)]
  refine ⟨{ p' with fields := F', result := res', stack := (g, v) :: (s0, v0) :: st }, .step ?_,
    ⟨rfl, rfl, rfl, e2.la⟩⟩
  unfold step
  rw [h.stack]
  simp only [pactOf_eq hsn.1, defOf_eq hsn.1, Res.ofOption, Res.ok_bind, if_neg hsn.2, e1]
  cases ha : action (pactOf s) (translate (headTok ts)) with
  | none =>
    rw [ha] at hr
    cases hr
    exact hred
  | some z =>
    rw [ha] at hr
    simp only [] at hr ⊢
    split at hr
    case isFalse => cases hr
    rename_i hz
    cases hr
    rw [if_neg (by omega), if_pos hz.1]
    exact hred

end

/-! ### Tokens -/

/-- A token as the lexer gives it. -/
def Fine (t : LexTok) : Prop := Shaped t ∧ t.tok ≠ .eof

theorem spec_word {t : LexTok} (h : Fine t) {w : QWord} (e : t.spec = .word w) (hw : w.length ≤ 253) :
    t.tok = .word ∧ callN t = 1 ∧ ∀ n, tokVal t n = .word ⟨w, false, n⟩ := by
  obtain ⟨tok, call, text, dyn⟩ := t
  obtain ⟨h1, h2⟩ := h
  cases tok <;> simp [LexTok.spec] at e
  subst e
  have hd : dyn = false := by
    cases dyn with
    | false => rfl
    | true => have := h1.dyn rfl; simp [maxWordSize] at this; omega
  subst hd
  have := h1.word (Or.inl rfl)
  simp only at this
  subst this
  exact ⟨rfl, rfl, fun n => rfl⟩

theorem spec_wild {t : LexTok} (h : Fine t) {w : QWord} (e : t.spec = .wild w) (hw : w.length ≤ 253) :
    t.tok = .wild ∧ callN t = 1 ∧ ∀ n, tokVal t n = .word ⟨w, false, n⟩ := by
  obtain ⟨tok, call, text, dyn⟩ := t
  obtain ⟨h1, h2⟩ := h
  cases tok <;> simp [LexTok.spec] at e
  subst e
  have hd : dyn = false := by
    cases dyn with
    | false => rfl
    | true => have := h1.dyn rfl; simp [maxWordSize] at this; omega
  subst hd
  have := h1.word (Or.inr rfl)
  simp only at this
  subst this
  exact ⟨rfl, rfl, fun n => rfl⟩

theorem spec_sym {t : LexTok} (h : Fine t) {c : Char} (e : t.spec = .sym c) :
    t.tok = .ch c ∧ callN t = 0 ∧ ∀ n, tokVal t n = .none := by
  obtain ⟨tok, call, text, dyn⟩ := t
  obtain ⟨h1, h2⟩ := h
  cases tok <;> simp [LexTok.spec] at e
  · exact absurd rfl h2
  · subst e
    have := h1.sym _ rfl
    simp only at this
    subst this
    exact ⟨rfl, rfl, fun n => rfl⟩

theorem spec_key {t : LexTok} {k : QTok} (e : t.spec = k) :
    (k = .and → t.tok = .and) ∧ (k = .or → t.tok = .or) ∧ (k = .req → t.tok = .req) ∧ (k = .not → t.tok = .not) := by
  obtain ⟨tok, call, text, dyn⟩ := t
  subst e
  cases tok <;> simp [LexTok.spec]

theorem spec_cons {ts : List LexTok} {q : QTok} {qs : List QTok} (h : ts.map LexTok.spec = q :: qs) :
    ∃ t ts', ts = t :: ts' ∧ t.spec = q ∧ ts'.map LexTok.spec = qs := by
  obtain ⟨t, ts', h1, h2, h3⟩ := List.map_eq_cons_iff.1 h
  exact ⟨t, ts', h1, h2, h3⟩

theorem spec_nil {ts : List LexTok} (h : ts.map LexTok.spec = []) : ts = [] := List.map_eq_nil_iff.1 h

theorem spec_append {ts : List LexTok} {a b : List QTok} (h : ts.map LexTok.spec = a ++ b) :
    ∃ t1 t2, ts = t1 ++ t2 ∧ t1.map LexTok.spec = a ∧ t2.map LexTok.spec = b := by
  obtain ⟨t1, t2, h1, h2, h3⟩ := List.map_eq_append_iff.1 h
  exact ⟨t1, t2, h1, h2, h3⟩

end Ferret.QP
