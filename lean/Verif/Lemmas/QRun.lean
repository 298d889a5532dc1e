import Verif.Lemmas.QReduce

/-!
The loop of the query parser: it ends, and what it ends with.
-/

namespace Ferret.QP
open Ferret.Spec

section
variable {cfg : Cfg} {qlen : Nat} {full : List LexTok} {p : PS} {ys las zs : List LexTok} {v : Val}
  {st : List (Nat × Val)}

theorem redAll (E : Env cfg full) (hi : Inv cfg qlen full p ys las zs) : ∀ r, 2 ≤ r → r ≤ 51 →
    p.stack = (topOf r, v) :: st → RedGood cfg qlen full p las zs r
  | 0, h, _, _ => absurd h (by decide)
  | 1, h, _, _ => absurd h (by decide)
  | 2, _, _, hst => red2 hi hst
  | 3, _, _, hst => red3 hi hst
  | 4, _, _, hst => red4 hi hst
  | 5, _, _, hst => red5 E hi hst
  | 6, _, _, hst => red6 E hi hst
  | 7, _, _, hst => red7 E hi hst
  | 8, _, _, hst => red8 E hi hst
  | 9, _, _, hst => red9 E hi hst
  | 10, _, _, hst => red10 E hi hst
  | 11, _, _, hst => red11 E hi hst
  | 12, _, _, hst => red12 E hi hst
  | 13, _, _, hst => red13 E hi hst
  | 14, _, _, hst => red14 E hi hst
  | 15, _, _, hst => red15 E hi hst
  | 16, _, _, hst => red16 E hi hst
  | 17, _, _, hst => red17 E hi hst
  | 18, _, _, hst => red18 E hi hst
  | 19, _, _, hst => red19 E hi hst
  | 20, _, _, hst => red20 E hi hst
  | 21, _, _, hst => red21 E hi hst
  | 22, _, _, hst => red22 E hi hst
  | 23, _, _, hst => red23 E hi hst
  | 24, _, _, hst => red24 hi hst
  | 25, _, _, hst => red25 E hi hst
  | 26, _, _, hst => red26 hi hst
  | 27, _, _, hst => red27 hi hst
  | 28, _, _, hst => red28 E hi hst
  | 29, _, _, hst => red29 E hi hst
  | 30, _, _, hst => red30 E hi hst
  | 31, _, _, hst => red31 E hi hst
  | 32, _, _, hst => red32 E hi hst
  | 33, _, _, hst => red33 E hi hst
  | 34, _, _, hst => red34 E hi hst
  | 35, _, _, hst => red35 E hi hst
  | 36, _, _, hst => red36 E hi hst
  | 37, _, _, hst => red37 E hi hst
  | 38, _, _, hst => red38 E hi hst
  | 39, _, _, hst => red39 E hi hst
  | 40, _, _, hst => red40 E hi hst
  | 41, _, _, hst => red41 E hi hst
  | 42, _, _, hst => red42 E hi hst
  | 43, _, _, hst => red43 E hi hst
  | 44, _, _, hst => red44 E hi hst
  | 45, _, _, hst => red45 E hi hst
  | 46, _, _, hst => red46 E hi hst
  | 47, _, _, hst => red47 E hi hst
  | 48, _, _, hst => red48 E hi hst
  | 49, _, _, hst => red49 E hi hst
  | 50, _, _, hst => red50 E hi hst
  | 51, _, _, hst => red51 E hi hst
  | _ + 52, _, h, _ => absurd h (by omega)

theorem redDefault (E : Env cfg full) (hi : Inv cfg qlen full p ys las zs) {s : Nat}
    (hst : p.stack = (s, v) :: st) : RedGood cfg qlen full p las zs (defOf s) := by
  have hk := hi.stk
  rw [hst] at hk
  by_cases h0 : defOf s = 0
  · rw [h0]
    exact ⟨.error p, rfl, trivial⟩
  · obtain ⟨h1, h2, h3⟩ := default_ok s hk.lt hk.ne h0
    exact redAll E hi _ h1 h2 (by rw [h3]; exact hst)

theorem look_good (hi : Inv cfg qlen full p ys las zs) {s : Nat} (hst : p.stack = (s, v) :: st)
    (hpact : pactOf s ≠ -30) :
    ∃ t u p' las' zs', lookahead cfg qlen p = .ok (t, u, p') ∧ Inv cfg qlen full p' ys las' zs' ∧
      p'.stack = p.stack ∧ las'.length + zs'.length = las.length + zs.length ∧
      ((t = .eof ∧ las' = [] ∧ zs' = []) ∨
        ∃ k, t = k.tok ∧ las' = [k] ∧ u = tokVal k p'.calls ∧ Lexed cfg.keywords qlen p'.rest zs') := by
  have hk := hi.stk
  rw [hst] at hk
  have htop : ∀ s' v' st', p.stack = (s', v') :: st' → yypact[s']? ≠ some (-30) := by
    intro s' v' st' e
    rw [hst] at e
    cases e
    rw [pactOf_eq hk.lt]
    intro h
    exact hpact (Option.some.inj h)
  rcases hi.la with ⟨e1, e2, e3⟩ | ⟨e1, e2, e3⟩ | ⟨t, e1, e2, e3⟩
  · unfold lookahead
    rw [e1]
    cases e3 with
    | done h1 h2 =>
      rename_i t r
      have hc := (yylex_shaped h1).eof h2
      simp only [h1, Res.ok_bind, h2, hc, Res.pure_eq]
      refine ⟨_, _, _, las, [], rfl, ⟨hi.stk, hi.all, hi.num, Or.inr (Or.inl ⟨rfl, e2, rfl⟩), ?_, hi.res⟩, rfl, rfl,
        Or.inl ⟨rfl, e2, rfl⟩⟩
      intro _ _ _ _ _ _
      exact e2
    | more h1 h2 h3 =>
      rename_i t r ts
      simp only [h1, Res.ok_bind, Res.pure_eq]
      have hn : (if t.call = true then p.calls + 1 else p.calls) = p.calls + callN t := by
        unfold callN
        split <;> rfl
      rw [hn]
      refine ⟨_, _, _, [t], ts, rfl, ⟨hi.stk, ?_, ?_, Or.inr (Or.inr ⟨t, rfl, rfl, h3⟩), ?_, hi.res⟩, rfl, ?_,
        Or.inr ⟨t, rfl, rfl, rfl, h3⟩⟩
      · rw [hi.all, e2]; simp
      · have := hi.num
        rw [e2] at this
        simp at this ⊢; omega
      · intro s' v' st' e _ h
        exact absurd h (htop s' v' st' e)
      · rw [e2]; simp; omega
  · unfold lookahead
    rw [e1]
    exact ⟨_, _, _, las, zs, rfl, hi, rfl, rfl, Or.inl ⟨rfl, e2, e3⟩⟩
  · unfold lookahead
    rw [e1]
    exact ⟨_, _, _, las, zs, rfl, hi, rfl, rfl, Or.inr ⟨t, rfl, e2, rfl, e3⟩⟩

theorem phi_eq {st : List (Nat × Val)} {a b c d : List LexTok} (h : a.length + b.length = c.length + d.length) :
    phi st a b = phi st c d := by
  unfold phi
  rw [h]

theorem wt_le (k : Nat) : wt k ≤ 10 := by
  unfold wt
  repeat (first | omega | split)

theorem bonus_le (k : Nat) : bonus k ≤ 3 := by unfold bonus; split <;> omega

/-- A shift keeps the invariant. -/
theorem shifted {k : LexTok} (hi : Inv cfg qlen full p ys [k] zs) {s y : Nat} (hst : p.stack = (s, v) :: st)
    (g1 : s ∈ preds y) (g2 : stos y = translate k.tok) (g3 : y ≠ 0) (hlex : Lexed cfg.keywords qlen p.rest zs) :
    OutGood cfg qlen full (phi p.stack [k] zs) (push { p with la := none } y (tokVal k p.calls)) := by
  have hlt := translate_lt k.tok
  have hstk := hi.stk
  have hn : p.calls = calls ys + callN k := by have := hi.num; simpa using this
  have hphi : phi ((y, tokVal k p.calls) :: p.stack) [] zs < phi p.stack [k] zs := by
    have := wt_le (stos y)
    have := bonus_le y
    unfold phi wsum
    simp only [List.map_cons, List.sum_cons, List.head?_cons, Option.map_some, Option.getD_some,
      List.length_nil, List.length_cons]
    omega
  unfold push
  simp only []
  split
  · refine ⟨ys ++ [k], [], zs, ⟨?_, ?_, ?_, Or.inl ⟨rfl, rfl, hlex⟩, (fun _ _ _ _ _ _ => rfl), ?_⟩, hphi⟩
    · show Stk cfg ((y, tokVal k p.calls) :: p.stack) (ys ++ [k]) p.fields
      rw [hst] at hstk ⊢
      refine .push hstk g1 g3 ?_
      rw [g2]
      unfold Sem
      rw [if_pos (by omega)]
      exact ⟨k, rfl, rfl, by rw [hn], rfl⟩
    · rw [hi.all]; simp
    · show p.calls = _
      rw [hn]; simp
    · intro v' st' e
      simp only [List.cons.injEq, Prod.mk.injEq] at e
      rw [e.1.1] at g2
      have : stos 12 = 27 := rfl
      omega
  · trivial

/-- A turn of the loop keeps the invariant, or ends the loop. -/
theorem step_good (E : Env cfg full) (hi : Inv cfg qlen full p ys las zs) :
    ∃ out, step cfg qlen p = .ok out ∧ OutGood cfg qlen full (phi p.stack las zs) out := by
  obtain ⟨s, v, st, hst⟩ : ∃ s v st, p.stack = (s, v) :: st := by
    have := hi.stk
    match h : p.stack with
    | [] => rw [h] at this; cases this
    | (s, v) :: st => exact ⟨s, v, st, rfl⟩
  have hk := hi.stk
  rw [hst] at hk
  unfold step
  rw [hst]
  simp only [pactOf_eq hk.lt, defOf_eq hk.lt, Res.ofOption, Res.ok_bind]
  by_cases hp : pactOf s = -30
  · rw [if_pos hp]
    obtain ⟨out, e1, e2⟩ := redDefault E hi hst
    exact ⟨out, e1, by rw [← hst]; exact e2⟩
  rw [if_neg hp]
  obtain ⟨t, u, p', las', zs', e1, hi', e2, e3, e4⟩ := look_good hi hst hp
  simp only [e1, Res.ok_bind]
  rw [← phi_eq e3, ← hst, ← e2]
  rw [hst] at e2
  have hlt := translate_lt t
  have hsh := shift_ok s hk.lt hp _ hlt
  have hng := negative_ok s hk.lt hp _ hlt
  have hac := accept_ok s hk.lt hp _ hlt
  cases ha : action (pactOf s) (translate t) with
  | none =>
    obtain ⟨out, f1, f2⟩ := redDefault E hi' e2
    exact ⟨out, f1, f2⟩
  | some y =>
    rw [ha] at hsh hng hac
    simp only [Option.all_some, decide_eq_true_eq] at hsh hng
    simp only []
    by_cases h0 : y = 0 ∨ y = -30
    · rw [if_pos h0]
      exact ⟨_, rfl, trivial⟩
    rw [if_neg h0]
    by_cases hneg : y < 0
    · rw [if_pos hneg]
      obtain ⟨rfl, rfl⟩ := hng hneg
      exact red29 E hi' e2
    rw [if_neg hneg]
    by_cases h39 : y = 39
    · rw [if_pos h39]
      subst h39
      obtain ⟨rfl, h0⟩ := hac rfl
      refine ⟨_, rfl, ?_⟩
      have hteof : t = .eof := untranslate_eq h0 (by decide)
      obtain ⟨-, hl, hz⟩ : t = .eof ∧ las' = [] ∧ zs' = [] := by
        rcases e4 with h | ⟨k, h1, h2, -, -⟩
        · exact h
        · exact absurd (h1 ▸ hteof) (E.noeof k (by rw [hi'.all, h2]; simp))
      have hstk := hi'.stk
      rw [e2] at hstk
      have hres := hi'.res _ _ e2
      obtain ⟨s0, v0, st0, ys0, ys1, F0, rfl, hp0, hk0, rfl, hsem⟩ := peel hstk (by decide)
      obtain rfl : s0 = 0 := by simpa [preds, predsT] using hp0
      obtain ⟨rfl, -, rfl⟩ := hk0.bottom
      obtain ⟨hF, hsem⟩ := hsem
      refine ⟨hF, ?_⟩
      have hall := hi'.all
      rw [hl, hz] at hall
      simp only [List.nil_append, List.append_nil] at hall
      rcases hsem with ⟨h1, h2⟩ | ⟨T, h1, h2⟩
      · left
        rw [hres] at h2
        exact ⟨hall.trans h1, Val.q.inj h2⟩
      · right
        rw [hres] at h2
        exact ⟨T, by rw [hall]; exact h1, Val.q.inj h2⟩
    · rw [if_neg h39]
      obtain ⟨g1, g2, g3, g4, g5⟩ := hsh (by omega) h39
      rcases e4 with ⟨rfl, -, -⟩ | ⟨k, rfl, rfl, rfl, hlex⟩
      · simp [translate] at g4
      exact ⟨_, rfl, shifted hi' e2 (List.contains_iff_mem.1 g1) g2 g3 hlex⟩

/-- What the whole loop may end with. -/
def EndGood (cfg : Cfg) (full : List LexTok) : End → Prop
  | .accept p => p.fields = [cfg.defFields] ∧ ((full = [] ∧ p.result = none) ∨
      ∃ T : QClauses, T.written = full.map LexTok.spec ∧ p.result = boolOf (T.meant (lang cfg) cfg.defFields))
  | .error _ => True
  | .failed _ => ¬ QOrdered cfg.inOrder cfg.lower (full.map LexTok.spec)
  | .loop => False

theorem parse_good (E : Env cfg full) : ∀ (n : Nat) (p : PS) (ys las zs : List LexTok),
    Inv cfg qlen full p ys las zs → phi p.stack las zs < n →
    ∃ e, parse cfg qlen n p = .ok e ∧ EndGood cfg full e := by
  intro n
  induction n with
  | zero => intro p ys las zs _ h; omega
  | succ n ih =>
    intro p ys las zs hi hn
    obtain ⟨out, e1, e2⟩ := step_good E hi
    rw [parse, e1, Res.ok_bind]
    match out, e2 with
    | .next p', ⟨ys', las', zs', hi', h⟩ => exact ih p' ys' las' zs' hi' (by omega)
    | .accept p', h => exact ⟨_, rfl, h⟩
    | .error p', h => exact ⟨_, rfl, h⟩
    | .full p', h => exact ⟨.error p', rfl, trivial⟩
    | .failed p', h => exact ⟨_, rfl, h⟩

theorem parse_start (E : Env cfg full) {s : List Char} (hl : Lexed cfg.keywords qlen s full) {n : Nat}
    (hn : 20 * full.length + 20 ≤ n) :
    ∃ e, parse cfg qlen n ⟨[(0, .none)], none, s, 0, [cfg.defFields], none⟩ = .ok e ∧ EndGood cfg full e := by
  refine parse_good E n _ [] [] full ⟨.base, rfl, rfl, Or.inl ⟨rfl, rfl, hl⟩, (fun _ _ _ _ _ _ => rfl), ?_⟩ ?_
  · intro v st e
    simp at e
  · simp [phi, wsum, wt, bonus, stos, stosT]
    omega

end

theorem lexAll_lexed {keys : Bool} {qlen : Nat} : ∀ (n : Nat) (s : List Char), s.length < n → s.length ≤ qlen →
    (NoColons s ∨ s.length < maxWordSize) →
    ∃ ts, lexAll keys qlen n s = .ok ts ∧ Lexed keys qlen s ts ∧ ts.length ≤ s.length := by
  intro n
  induction n with
  | zero => intro s h; omega
  | succ n ih =>
    intro s hn hl hc
    obtain ⟨t, rest, e1, e2⟩ := yylex_ok (keys := keys) hl hc
    rw [lexAll, e1, Res.ok_bind]
    simp only []
    by_cases ht : t.tok = .eof
    · rw [if_pos ht]
      exact ⟨[], rfl, .done e1 ht, Nat.zero_le _⟩
    · rw [if_neg ht]
      have hsh : rest.length < s.length := e2.shorter ht
      obtain ⟨u, hu, -⟩ := e2.suffix
      obtain ⟨ts, f1, f2, f3⟩ := ih rest (by omega) (by omega) (by
        rcases hc with hc | hc
        · exact Or.inl (noColons_suffix (hu ▸ hc))
        · exact Or.inr (by omega))
      rw [f1]
      exact ⟨t :: ts, rfl, .more e1 ht f2, by simp; omega⟩

end Ferret.QP
