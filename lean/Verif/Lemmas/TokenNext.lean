import Verif.Lemmas.TokenChains

/-! Asking a stream for tokens (C96). -/

namespace Ferret.TS
open Ferret Ferret.Spec Ferret.Ana

local notation "Ref" => Nat

/-- Only the chain of `b` changes, up to the address `u`, and mappers may be compiled. -/
def Chg (b u : Ref) (h h' : Heap) : Prop := h'.length = h.length ∧ ∀ (x : Ref) (o : Obj), h[x]? = some o → ∃ o', h'[x]? = some o' ∧ o'.cnt = o.cnt ∧ o'.refs = o.refs ∧
  o'.isPfa = o.isPfa ∧ o'.chain = o.chain ∧ ((x ≤ u ∧ o.chain = some b) ∨ NodeLe o.node o'.node)

theorem Chg.refl (b u : Ref) (h : Heap) : Chg b u h h := ⟨rfl, fun _ o e => ⟨o, e, rfl, rfl, rfl, rfl, .inr (.inl rfl)⟩⟩

theorem NodeLe.trans {a b c : Node} (h1 : NodeLe a b) (h2 : NodeLe b c) : NodeLe a c := by
  rcases h1 with rfl | ⟨m, m', rfl, rfl, hd, hc⟩
  · exact h2
  · rcases h2 with rfl | ⟨m1, m1', e1, _, hd1, _⟩
    · exact .inr ⟨m, m', rfl, rfl, hd, hc⟩
    · cases e1
      have := compile_some hc
      rw [hd1] at this; cases this

theorem Chg.trans {b u : Ref} {h1 h2 h3 : Heap} (a : Chg b u h1 h2) (c : Chg b u h2 h3) : Chg b u h1 h3 := by
  refine ⟨c.1.trans a.1, ?_⟩
  intro x o e
  obtain ⟨o2, e2, n2, r2, p2, c2, d2⟩ := a.2 x o e
  obtain ⟨o3, e3, n3, r3, p3, c3, d3⟩ := c.2 x o2 e2
  refine ⟨o3, e3, n3.trans n2, r3.trans r2, p3.trans p2, c3.trans c2, ?_⟩
  rcases d2 with d2 | d2
  · exact .inl d2
  · rcases d3 with d3 | d3
    · exact .inl ⟨d3.1, by rw [← c2]; exact d3.2⟩
    · exact .inr (d2.trans d3)

theorem Chg.mono {b u v : Ref} {h h' : Heap} (a : Chg b u h h') (hv : u ≤ v) : Chg b v h h' := by
  refine ⟨a.1, fun x o e => ?_⟩
  obtain ⟨o2, e2, n2, r2, p2, c2, d2⟩ := a.2 x o e
  exact ⟨o2, e2, n2, r2, p2, c2, d2.imp (fun d => ⟨by omega, d.2⟩) id⟩

theorem Chg.ext {b u : Ref} {h h' : Heap} (a : Chg b u h h') : Ext (· = b) h h' := by
  intro x o e l _
  obtain ⟨o2, e2, n2, _, _, _, d2⟩ := a.2 x o e
  exact ⟨o2, e2, by omega, d2.imp (fun d => ⟨b, d.2, rfl⟩) id⟩

theorem Chg.good {b u : Ref} {h h' : Heap} {R : List Ref} (a : Chg b u h h') (hg : Good h R) : Good h' R := by
  have back : ∀ (x : Ref) (o' : Obj), h'[x]? = some o' → ∃ o, h[x]? = some o ∧ o'.cnt = o.cnt ∧ o'.refs = o.refs ∧ o'.isPfa = o.isPfa ∧ o'.chain = o.chain := by
    intro x o' e'
    have hx : x < h.length := by rw [← a.1]; exact lt_of_some e'
    obtain ⟨o2, e2, n2, r2, p2, c2, _⟩ := a.2 x h[x] (List.getElem?_eq_getElem hx)
    rw [e'] at e2; cases e2
    exact ⟨h[x], List.getElem?_eq_getElem hx, n2, r2, p2, c2⟩
  have hrefs : h'.map Obj.refs = h.map Obj.refs := by
    apply List.ext_getElem?
    intro x
    rw [List.getElem?_map, List.getElem?_map]
    cases e : h[x]? with
    | none =>
      have : h'[x]? = none := by
        rw [List.getElem?_eq_none_iff] at e ⊢; rw [a.1]; exact e
      rw [this]
    | some o =>
      obtain ⟨o2, e2, _, r2, _⟩ := a.2 x o e
      rw [e2, Option.map_some, Option.map_some, r2]
  have hall : allRefs h' = allRefs h := by
    unfold allRefs; rw [List.flatMap_def, List.flatMap_def, hrefs]
  refine ⟨?_, ?_, ?_, ?_⟩
  · intro r
    rw [hall, ← hg.count r]
    unfold cntOf
    cases e : h[r]? with
    | none =>
      have : h'[r]? = none := by
        rw [List.getElem?_eq_none_iff] at e ⊢; rw [a.1]; exact e
      rw [this]
    | some o =>
      obtain ⟨o2, e2, n2, _⟩ := a.2 r o e
      rw [e2]; exact n2
  · intro x o' e' k hk
    obtain ⟨o, e, _, r2, p2, _⟩ := back x o' e'
    rw [r2] at hk
    obtain ⟨q1, q2⟩ := hg.ord x o e k hk
    refine ⟨?_, by rw [p2]; exact q2⟩
    intro ok ek
    obtain ⟨ok0, ek0, _, _, pk, _⟩ := back k ok ek
    rw [pk]; exact q1 ok0 ek0
  · intro x o' e' c hc
    obtain ⟨o, e, _, _, _, c2⟩ := back x o' e'
    rw [c2] at hc
    exact hg.chain x o e c hc
  · intro x o' e' hz
    obtain ⟨o, e, n2, r2, _⟩ := back x o' e'
    rw [n2] at hz; rw [r2]
    exact hg.dead x o e hz

/-- Changing one object of the chain. -/
theorem Chg.set {b u x : Ref} {h : Heap} {o o' : Obj} (e : h[x]? = some o) (hn : o'.cnt = o.cnt) (hr : o'.refs = o.refs) (hp : o'.isPfa = o.isPfa) (hc : o'.chain = o.chain)
    (hd : (x ≤ u ∧ o.chain = some b) ∨ NodeLe o.node o'.node) : Chg b u h (h.set x o') := by
  refine ⟨by simp, ?_⟩
  intro y oy ey
  rw [set_get h e]
  by_cases hy : y = x
  · subst hy
    rw [e] at ey; cases ey
    rw [if_pos rfl]
    exact ⟨o', rfl, hn, hr, hp, hc, hd⟩
  · rw [if_neg hy]
    exact ⟨oy, ey, rfl, rfl, rfl, rfl, .inr (.inl rfl)⟩

/-- A stream depends only on what is below it and on tables and mappers. -/
theorem Rep.under {h h' : Heap} {b r : Ref} {z fs rest cl} (hr : Rep h b r z fs rest cl)
    (hx : ∀ (x : Ref) (o : Obj), h[x]? = some o → (x ≤ r ∨ o.chain = none) → h'[x]? = some o) : Rep h' b r z fs rest cl := by
  induction hr with
  | tz e hc ht => exact .tz (hx _ _ e (.inl (Nat.le_refl _))) hc ht
  | filt e hc hlt _ hl ih =>
    refine .filt (hx _ _ e (.inl (Nat.le_refl _))) hc hlt (ih ?_) (hl.frame ?_)
    · intro x o ex hor
      exact hx x o ex (hor.imp (fun h => by omega) id)
    · intro x _ o ex lx cx _
      exact ⟨o, hx x o ex (.inr cx), lx, .inl rfl⟩

theorem Rep.setTok {h : Heap} {b r : Ref} {z fs rest cl} (hr : Rep h b r z fs rest cl) {c z' text pos tok} (e : h[b]? = some ⟨c, .tz z' text pos tok b⟩) (t : Token) :
    Rep (h.set b ⟨c, .tz z' text pos t b⟩) b r z fs rest cl := by
  induction hr with
  | tz e' hc ht =>
    rw [e] at e'; cases e'
    exact .tz (by rw [set_get h e, if_pos rfl]) hc ht
  | @filt r c1 k sub z1 fs1 rest1 cl1 f rest2 lc e' hc hlt _ hl ih =>
    have hne : r ≠ b := by
      intro h; subst h; rw [e] at e'; cases e'
    refine .filt (by rw [set_get h e, if_neg hne]; exact e') hc hlt ih (hl.frame ?_)
    intro x _ o ex lx cx _
    have hxb : x ≠ b := by
      intro h; subst h; rw [e] at ex; cases ex; cases cx
    exact ⟨o, by rw [set_get h e, if_neg hxb]; exact ex, lx, .inl rfl⟩

theorem tokenAt_ok {h : Heap} {b c z text pos tok ch} (e : h[b]? = some ⟨c, .tz z text pos tok ch⟩) (hc : 0 < c) : tokenAt h b = .ok tok := by
  unfold tokenAt; rw [get_ok e hc]; rfl

theorem setToken_ok {h : Heap} {b c z text pos tok ch} (e : h[b]? = some ⟨c, .tz z text pos tok ch⟩) (hc : 0 < c) (t : Token) :
    setToken h b t = .ok (h.set b ⟨c, .tz z text pos t ch⟩) := by
  unfold setToken; rw [get_ok e hc]; rfl

/-- Changing the token where it is. -/
theorem change_ok {h : Heap} {b r : Ref} {z fs rest cl} (hr : Rep h b r z fs rest cl) (t : Token) :
    ∃ h', setToken h b t = .ok h' ∧ Chg b b h h' ∧ Rep h' b r z fs rest cl ∧ tokenAt h' b = .ok t ∧ ∀ (x : Ref) (o : Obj), h[x]? = some o → x ≠ b → h'[x]? = some o := by
  obtain ⟨c, text, pos, tok, e, hc⟩ := hr.base
  refine ⟨_, setToken_ok e hc t, Chg.set e rfl rfl rfl rfl (.inl ⟨Nat.le_refl _, rfl⟩), hr.setTok e t, tokenAt_ok (by rw [set_get h e, if_pos rfl]) hc, ?_⟩
  intro x o ex hx
  rw [set_get h e, if_neg hx]; exact ex

/-- A call of next: what it gives, and what is left. -/
def Gives (b r : Ref) (z : List Byte → Res (List Token)) (fs : List Filter) (rest : List Token) (h : Heap) : Prop :=
  match rest with
  | [] => ∃ h' N, Chg b r h h' ∧ (∀ n, N ≤ n → next n r h = .ok (none, h')) ∧ Rep h' b r z fs (some []) true
  | t :: ts => ∃ h' N cl', Chg b r h h' ∧ (∀ n, N ≤ n → next n r h = .ok (some b, h')) ∧ tokenAt h' b = .ok t ∧ Rep h' b r z fs (some ts) cl'

def AllGive (b r : Ref) (z : List Byte → Res (List Token)) (fs : List Filter) : Prop :=
  ∀ (h : Heap) (rest : List Token) (cl : Bool), Rep h b r z fs (some rest) cl → Gives b r z fs rest h

/-- A filter is not changed by what happens below. -/
theorem Chg.top {b sub r c : Ref} {k : Kind} {h h' : Heap} (a : Chg b sub h h') (e : h[r]? = some ⟨c, .filt k sub b⟩) (hlt : sub < r) : h'[r]? = some ⟨c, .filt k sub b⟩ := by
  obtain ⟨⟨c', nd⟩, e', n', _, _, _, d⟩ := a.2 r _ e
  rcases d with ⟨d, _⟩ | d | ⟨m, m', hm, _⟩
  · omega
  · simp only at d n'; subst d n'; exact e'
  · cases hm

theorem Chg.layer {b u : Ref} {h h' : Heap} (a : Chg b u h h') : ∀ (k : Kind), ∀ x ∈ k.refs, ∀ o, h[x]? = some o → 0 < o.cnt → o.chain = none → o.isPfa = false → ∃ o', h'[x]? = some o' ∧ 0 < o'.cnt ∧ NodeLe o.node o'.node := by
  intro k x _ o ex lx cx _
  obtain ⟨o2, e2, n2, _, _, _, d2⟩ := a.2 x o ex
  rcases d2 with d2 | d2
  · rw [cx] at d2; cases d2.2
  · exact ⟨o2, e2, by omega, d2⟩

/-- Filters that take tokens one by one. -/
theorem single_gives {b sub r c : Ref} {k : Kind} {z fs f} {nx : List Token → Res (Option (Token × List Token))} {g : Token → Res Token} (hs : Single nx g) (hsub : AllGive b sub z fs)
    {h : Heap} (e : h[r]? = some ⟨c, .filt k sub b⟩) (hc : 0 < c) (hlt : sub < r) {l l' : List Token} {cl : Bool} (hr : Rep h b sub z fs (some l) cl) {m : Nat} (hd : drain nx m l = .ok l')
    (hlay : ∀ h', (∀ x ∈ k.refs, ∀ o, h[x]? = some o → 0 < o.cnt → o.chain = none → o.isPfa = false → ∃ o', h'[x]? = some o' ∧ 0 < o'.cnt ∧ NodeLe o.node o'.node) →
      ∀ l l' m, drain nx m l = .ok l' → Layer h' b k f (some l) (some l') true)
    (hnext : ∀ n h', (∀ x ∈ k.refs, ∀ o, h[x]? = some o → 0 < o.cnt → o.chain = none → o.isPfa = false → ∃ o', h'[x]? = some o' ∧ 0 < o'.cnt ∧ NodeLe o.node o'.node) →
      ∀ o, next n sub h = .ok (o, h') → next (n + 1) r h = onToken g o h') : Gives b r z (fs ++ [f]) l' h := by
  have hg := hsub h l cl hr
  cases l with
  | nil =>
    obtain ⟨h', N, hchg, hn, hrep⟩ := hg
    have : l' = [] := by
      cases l' with
      | nil => rfl
      | cons t ts =>
        obtain ⟨s', m', h1, _⟩ := drain_cons hd
        rw [hs.1] at h1; cases h1
    subst this
    refine ⟨h', N + 1, hchg.mono (by omega), ?_, ?_⟩
    · intro n hn'
      obtain ⟨n, rfl⟩ : ∃ k, n = k + 1 := ⟨n - 1, by omega⟩
      rw [hnext n h' (hchg.layer k) none (hn n (by omega))]; rfl
    · exact .filt (hchg.top e hlt) hc hlt hrep (hlay h' (hchg.layer k) [] [] m hd)
  | cons t ts =>
    obtain ⟨h', N, cl', hchg, hn, htok, hrep⟩ := hg
    cases l' with
    | nil =>
      have := drain_nil hd
      rw [hs.2] at this
      obtain ⟨t', _, h2⟩ := Res.bind_eq_ok.1 this
      cases h2
    | cons t' ts' =>
      obtain ⟨s', m', h1, h2⟩ := drain_cons hd
      rw [hs.2] at h1
      obtain ⟨t'', h3, h4⟩ := Res.bind_eq_ok.1 h1
      cases h4
      obtain ⟨h2', e2, c2, r2, tk2, same⟩ := change_ok hrep t'
      have hb := hrep.le
      have hall : Chg b r h h2' := (hchg.mono (by omega)).trans (c2.mono (by omega))
      refine ⟨h2', N + 1, cl', hall, ?_, tk2, ?_⟩
      · intro n hn'
        obtain ⟨n, rfl⟩ : ∃ k, n = k + 1 := ⟨n - 1, by omega⟩
        rw [hnext n h' (hchg.layer k) (some b) (hn n (by omega))]
        unfold onToken
        simp only
        rw [htok, Res.ok_bind, h3, Res.ok_bind, e2, Res.ok_bind]
      · have := Rep.filt (same _ _ (hchg.top e hlt) (by omega)) hc hlt r2 (hlay h2' (hall.layer k) ts ts' m' h2)
        rw [Bool.and_true] at this
        exact this

/-- The loop of a stop filter. -/
theorem stop_loop {b sub : Ref} {z fs} (hsub : AllGive b sub z fs) (ws : List (List Byte)) : ∀ (l : List Token) (k : Int) (h : Heap) (cl : Bool), Rep h b sub z fs (some l) cl →
    match sfNext ws k l with
    | none => ∃ h' N, Chg b sub h h' ∧ (∀ n m, N ≤ n → N ≤ m → stopLoop (next n sub) ws m k h = .ok (none, h')) ∧ Rep h' b sub z fs (some []) true
    | some (t, l') => ∃ h' N cl', Chg b sub h h' ∧ (∀ n m, N ≤ n → N ≤ m → stopLoop (next n sub) ws m k h = .ok (some b, h')) ∧ tokenAt h' b = .ok t ∧ Rep h' b sub z fs (some l') cl' := by
  intro l
  induction l with
  | nil =>
    intro k h cl hr
    obtain ⟨h', N, hchg, hn, hrep⟩ := hsub h [] cl hr
    refine ⟨h', N + 1, hchg, ?_, hrep⟩
    intro n m h1 h2
    obtain ⟨m, rfl⟩ : ∃ k, m = k + 1 := ⟨m - 1, by omega⟩
    simp only [stopLoop]
    rw [hn n (by omega)]; rfl
  | cons t l ih =>
    intro k h cl hr
    obtain ⟨h', N, cl', hchg, hn, htok, hrep⟩ := hsub h (t :: l) cl hr
    simp only [sfNext]
    by_cases hw : t.text ∈ ws
    · rw [if_pos hw]
      have := ih (k + t.posInc) h' cl' hrep
      have hstep : ∀ n m, N ≤ n → stopLoop (next n sub) ws (m + 1) k h = stopLoop (next n sub) ws m (k + t.posInc) h' := by
        intro n m h1
        simp only [stopLoop]
        rw [hn n h1, Res.ok_bind]
        simp only
        rw [htok, Res.ok_bind, if_pos hw]
      cases hs : sfNext ws (k + t.posInc) l with
      | none =>
        rw [hs] at this
        obtain ⟨h2, N2, c2, n2, r2⟩ := this
        refine ⟨h2, N + N2 + 1, hchg.trans c2, ?_, r2⟩
        intro n m h1 h2
        obtain ⟨m, rfl⟩ : ∃ k, m = k + 1 := ⟨m - 1, by omega⟩
        rw [hstep n m (by omega)]
        exact n2 n m (by omega) (by omega)
      | some q =>
        obtain ⟨t2, l2⟩ := q
        rw [hs] at this
        obtain ⟨h2, N2, cl2, c2, n2, tk2, r2⟩ := this
        refine ⟨h2, N + N2 + 1, cl2, hchg.trans c2, ?_, tk2, r2⟩
        intro n m h1 h2
        obtain ⟨m, rfl⟩ : ∃ k, m = k + 1 := ⟨m - 1, by omega⟩
        rw [hstep n m (by omega)]
        exact n2 n m (by omega) (by omega)
    · rw [if_neg hw]
      obtain ⟨h2, e2, c2, r2, tk2, _⟩ := change_ok hrep { t with posInc := t.posInc + k }
      have hb := hrep.le
      refine ⟨h2, N + 1, cl', hchg.trans (c2.mono hb), ?_, tk2, r2⟩
      intro n m h1 h2
      obtain ⟨m, rfl⟩ : ∃ k, m = k + 1 := ⟨m - 1, by omega⟩
      simp only [stopLoop]
      rw [hn n (by omega), Res.ok_bind]
      simp only
      rw [htok, Res.ok_bind, if_neg hw, e2, Res.ok_bind]

theorem setHyphen_ok {h : Heap} {r c : Ref} {p hf0 tk0 sub ch} (e : h[r]? = some ⟨c, .filt (.hyphen p hf0 tk0) sub ch⟩) (hc : 0 < c) (hf : Hf) (tk : Option Ref) :
    setHyphen h r hf tk = .ok (h.set r ⟨c, .filt (.hyphen p hf tk) sub ch⟩) := by
  unfold setHyphen; rw [get_ok e hc]; rfl

/-- The filter after a change of its own fields. -/
theorem setHyphen_rep {h : Heap} {b r c sub : Ref} {p hf0 tk0 z fs rest rest' cl} (e : h[r]? = some ⟨c, .filt (.hyphen p hf0 tk0) sub b⟩) (hc : 0 < c) (hlt : sub < r)
    (hr : Rep h b sub z fs rest cl) (hf : Hf) (tk : Option Ref) (h1 : hf.pos < hf.len → tk = some b) (h2 : HyThru p hf rest rest') :
    Chg b r h (h.set r ⟨c, .filt (.hyphen p hf tk) sub b⟩) ∧ Rep (h.set r ⟨c, .filt (.hyphen p hf tk) sub b⟩) b r z (fs ++ [.hyphen p]) rest' (cl && !decide (hf.pos < hf.len)) := by
  refine ⟨Chg.set e rfl rfl rfl rfl (.inl ⟨Nat.le_refl _, rfl⟩), ?_⟩
  refine .filt (by rw [set_get h e, if_pos rfl]) hc hlt (hr.under ?_) (.hyphen h1 h2)
  intro x o ex hor
  rw [set_get h e, if_neg]
  · exact ex
  · intro hx
    subst hx
    rcases hor with h | h
    · omega
    · rw [e] at ex; cases ex; cases h

/-- What hf_next does with a token. -/
theorem hyphenStep_ok {h : Heap} {b r c sub : Ref} {p hf0 tk0 z fs cl} {l l1 : List Token} {hf : Hf} {t u : Token} {hf' : Hf} {sub1 : List Token} (e : h[r]? = some ⟨c, .filt (.hyphen p hf0 tk0) sub b⟩) (hc : 0 < c)
    (hlt : sub < r) (hr : Rep h b sub z fs (some l) cl) (hnx : hfNext p { hf with tk := some u } sub1 = .ok (some (t, hf', l1))) {ts : List Token} {m : Nat}
    (hd : drain (fun s => hfNext p s.1 s.2) m (hf', l) = .ok ts) :
    ∃ h' cl', hyphenStep p hf sub1 r b h = .ok (some b, h') ∧ Chg b r h h' ∧ tokenAt h' b = .ok t ∧ Rep h' b r z (fs ++ [.hyphen p]) (some ts) cl' := by
  obtain ⟨cb, text, pos, tok, eb, hcb⟩ := hr.base
  obtain ⟨h2, e2, c2, r2, tk2, same⟩ := change_ok hr t
  have hb := hr.le
  have er2 := same _ _ e (by omega)
  have hkeep := hfNext_keeps hnx
  have hthru : HyThru p hf' (some l) (some ts) := by
    refine ⟨ts, m, rfl, ?_⟩
    rw [hf_drain_tk p hf' someToken t l m, ← hkeep]
    exact hd
  obtain ⟨c3, r3⟩ := setHyphen_rep (tk := some b) er2 hc hlt r2 hf' (fun _ => rfl) hthru
  refine ⟨_, _, ?_, (c2.mono (by omega)).trans c3, ?_, r3⟩
  · unfold hyphenStep
    rw [tokenAt_ok eb hcb, Res.ok_bind, hfNext_tk p hf tok u sub1, hnx, Res.ok_bind]
    simp only
    rw [e2, Res.ok_bind, setHyphen_ok er2 hc, Res.ok_bind]
  · obtain ⟨cb', text', pos', tok', eb', hcb'⟩ := r2.base
    have : tok' = t := by rw [tokenAt_ok eb' hcb'] at tk2; cases tk2; rfl
    subst this
    exact tokenAt_ok (by rw [set_get _ er2, if_neg (by omega)]; exact eb') hcb'

theorem hyphen_gives {b sub r c : Ref} {p hf tk z fs} (hsub : AllGive b sub z fs) {h : Heap} (e : h[r]? = some ⟨c, .filt (.hyphen p hf tk) sub b⟩) (hc : 0 < c) (hlt : sub < r)
    {l l' : List Token} {cl : Bool} (hr : Rep h b sub z fs (some l) cl) (htk : hf.pos < hf.len → tk = some b) {m : Nat}
    (hd : drain (fun s => hfNext p s.1 s.2) m ({ hf with tk := some someToken }, l) = .ok l') : Gives b r z (fs ++ [.hyphen p]) l' h := by
  have hnext : ∀ n, next (n + 1) r h = hyphenNext (next n sub) p hf tk r h := by
    intro n
    show (get h r >>= _) = _
    rw [get_ok e hc]; rfl
  by_cases hp : hf.pos < hf.len
  · obtain ⟨t, hf', hnx⟩ := hfNext_pending (p := p) hp someToken l
    cases l' with
    | nil => have := drain_nil hd; simp only at this; rw [hnx] at this; cases this
    | cons t' ts =>
      obtain ⟨s', m', h1, h2⟩ := drain_cons hd
      simp only at h1
      rw [hnx] at h1
      simp only [Res.ok.injEq, Option.some.injEq, Prod.mk.injEq] at h1
      obtain ⟨rfl, rfl⟩ := h1
      have hnx' : hfNext p { hf with tk := some someToken } [] = .ok (some (t, hf', [])) := by
        unfold hfNext at hnx ⊢
        rw [if_pos (by exact hp)] at hnx ⊢
        simp only [Res.ok.injEq, Option.some.injEq, Prod.mk.injEq] at hnx ⊢
        exact ⟨hnx.1, hnx.2.1, trivial⟩
      obtain ⟨h', cl', e1, c1, t1, r1⟩ := hyphenStep_ok e hc hlt hr hnx' h2
      refine ⟨h', 1, cl', c1, ?_, t1, r1⟩
      intro n hn
      obtain ⟨n, rfl⟩ : ∃ k, n = k + 1 := ⟨n - 1, by omega⟩
      rw [hnext]
      unfold hyphenNext
      rw [if_pos hp, htk hp]
      exact e1
  · have hg := hsub h l cl hr
    cases l with
    | nil =>
      obtain ⟨h', N, hchg, hn, hrep⟩ := hg
      have hnone : hfNext p { hf with tk := some someToken } [] = .ok none := by
        unfold hfNext; rw [if_neg (by exact hp)]
      cases l' with
      | cons t ts =>
        obtain ⟨s', m', h1, _⟩ := drain_cons hd
        simp only at h1
        rw [hnone] at h1; cases h1
      | nil =>
        have er := hchg.top e hlt
        obtain ⟨c3, r3⟩ := setHyphen_rep (rest' := some []) er hc hlt hrep hf none (fun h => absurd h hp) ⟨[], m, rfl, hd⟩
        refine ⟨_, N + 1, (hchg.mono (by omega)).trans c3, ?_, ?_⟩
        · intro n hn'
          obtain ⟨n, rfl⟩ : ∃ k, n = k + 1 := ⟨n - 1, by omega⟩
          rw [hnext]
          unfold hyphenNext
          rw [if_neg hp, hn n (by omega), Res.ok_bind]
          simp only
          rw [setHyphen_ok er hc, Res.ok_bind]
        · have : (true && !decide (hf.pos < hf.len)) = true := by simp [hp]
          rw [this] at r3
          exact r3
    | cons t0 l0 =>
      obtain ⟨h', N, cl0, hchg, hn, htok, hrep⟩ := hg
      cases l' with
      | nil =>
        have := drain_nil hd
        simp only at this
        rw [hfNext_one hp] at this
        obtain ⟨q, _, h4⟩ := Res.bind_eq_ok.1 this
        cases q with
        | none => cases h4
        | some q => cases h4
      | cons t' ts =>
        obtain ⟨s', m', h1, h2⟩ := drain_cons hd
        simp only at h1
        rw [hfNext_one hp] at h1
        obtain ⟨q, h3, h4⟩ := Res.bind_eq_ok.1 h1
        cases q with
        | none => cases h4
        | some q =>
          obtain ⟨t'', hf', l1⟩ := q
          simp only [Res.ok.injEq, Option.some.injEq, Prod.mk.injEq] at h4
          obtain ⟨rfl, rfl⟩ := h4
          have er := hchg.top e hlt
          obtain ⟨h2', cl', e1, c1, t1, r1⟩ := hyphenStep_ok er hc hlt hrep h3 h2
          refine ⟨h2', N + 1, cl', (hchg.mono (by omega)).trans c1, ?_, t1, r1⟩
          intro n hn'
          obtain ⟨n, rfl⟩ : ∃ k, n = k + 1 := ⟨n - 1, by omega⟩
          rw [hnext]
          unfold hyphenNext
          rw [if_neg hp, hn n (by omega), Res.ok_bind]
          simp only
          rw [htok, Res.ok_bind]
          exact e1

theorem all_give : ∀ (k : Nat) (b r : Ref) (z : List Byte → Res (List Token)) (fs : List Filter), fs.length = k → AllGive b r z fs := by
  intro k
  induction k with
  | zero =>
    intro b r z fs hk h rest cl hr
    generalize hrest : (some rest) = orest at hr
    cases hr with
    | @tz c _ text pos tok _ e hc ht =>
      cases text with
      | none => rw [← hrest] at ht; cases ht
      | some t =>
        obtain ⟨l, hl, hl'⟩ := ht
        rw [← hrest, Option.some.injEq] at hl'
        have hnx : ∀ n, next (n + 1) b h = (match l[pos]? with | none => .ok (none, h) | some tk => .ok (some b, put h b ⟨c, .tz z (some t) pos tok b⟩ (.tz z (some t) (pos + 1) tk b))) := by
          intro n
          show (get h b >>= _) = _
          rw [get_ok e hc, Res.ok_bind]
          simp only
          rw [hl, Res.ok_bind]
          rfl
        cases rest with
        | nil =>
          have hn : l[pos]? = none := List.getElem?_eq_none (List.drop_eq_nil_iff.1 hl'.symm)
          refine ⟨h, 1, Chg.refl _ _ _, ?_, .tz e hc ⟨l, hl, by rw [← hl']⟩⟩
          intro n hn'
          obtain ⟨n, rfl⟩ : ∃ k, n = k + 1 := ⟨n - 1, by omega⟩
          rw [hnx, hn]
        | cons t0 ts =>
          have hlt : pos < l.length := by
            rw [Nat.lt_iff_add_one_le, ← Nat.not_lt]
            intro h
            rw [List.drop_eq_nil_of_le (by omega)] at hl'
            cases hl'
          rw [List.drop_eq_getElem_cons hlt] at hl'
          simp only [List.cons.injEq] at hl'
          have hn : l[pos]? = some t0 := by rw [List.getElem?_eq_getElem hlt, hl'.1]
          refine ⟨_, 1, true, Chg.set (o' := ⟨c, .tz z (some t) (pos + 1) t0 b⟩) e rfl rfl rfl rfl (.inl ⟨Nat.le_refl _, rfl⟩), ?_, ?_, ?_⟩
          · intro n hn'
            obtain ⟨n, rfl⟩ : ∃ k, n = k + 1 := ⟨n - 1, by omega⟩
            rw [hnx, hn]; rfl
          · exact tokenAt_ok (by rw [set_get h e, if_pos rfl]) hc
          · exact .tz (text := some t) (pos := pos + 1) (tok := t0) (by rw [set_get h e, if_pos rfl]) hc ⟨l, hl, by rw [hl'.2]⟩
    | filt => simp at hk
  | succ k ih =>
    intro b r z fs hk h rest cl hr
    generalize hrest : (some rest) = orest at hr
    cases hr with
    | tz => simp at hk
    | @filt _ c kd sub _ fs rest0 cl0 f _ lc e hc hlt hsub hl =>
      have hkl : fs.length = k := by simp at hk; exact hk
      have hall := ih b sub z fs hkl
      cases hl with
      | @plain p _ _ _ hpf ht =>
        cases rest0 with
        | none => rw [← hrest] at ht; cases ht
        | some l =>
          obtain ⟨l', m, h1, h2⟩ := ht
          rw [← hrest, Option.some.injEq] at h1
          subst h1
          refine single_gives (plain_single hpf) hall e hc hlt hsub h2 ?_ ?_
          · intro h' _ l l' m hd
            exact .plain hpf ⟨l', m, rfl, hd⟩
          · intro n h' _ o hn
            show (get h r >>= _) = _
            rw [get_ok e hc, Res.ok_bind]
            simp only
            rw [hn, Res.ok_bind]
      | @map ma cm m0 mm _ _ em hcm hor hsome ht =>
        cases rest0 with
        | none => rw [← hrest] at ht; cases ht
        | some l =>
          have hm0 : m0 = mm := by
            rcases hor with h | ⟨_, _, h⟩
            · exact h
            · cases h
          subst hm0
          obtain ⟨l', m, h1, h2⟩ := ht
          rw [← hrest, Option.some.injEq] at h1
          subst h1
          have hfr : ∀ h' : Heap, (∀ x ∈ (Kind.map ma).refs, ∀ o, h[x]? = some o → 0 < o.cnt → o.chain = none → o.isPfa = false → ∃ o', h'[x]? = some o' ∧ 0 < o'.cnt ∧ NodeLe o.node o'.node) →
              ∃ c', h'[ma]? = some ⟨c', .mapper m0⟩ ∧ 0 < c' := by
            intro h' hx
            obtain ⟨⟨c', nd⟩, e', l', hn⟩ := hx ma (by simp [Kind.refs]) _ em hcm rfl rfl
            rcases hn with hn | ⟨m1, m2, hm1, _, hd1, _⟩
            · simp only at hn; subst hn; exact ⟨c', e', l'⟩
            · simp only [Node.mapper.injEq] at hm1; subst hm1; rw [hd1] at hsome; cases hsome
          refine single_gives (map_single m0) hall e hc hlt hsub h2 ?_ ?_
          · intro h' hx l l' m hd
            obtain ⟨c', e', l2⟩ := hfr h' hx
            exact .map e' l2 (.inl rfl) hsome ⟨l', m, rfl, hd⟩
          · intro n h' hx o hn
            obtain ⟨c', e', l2⟩ := hfr h' hx
            show (get h r >>= _) = _
            rw [get_ok e hc, Res.ok_bind]
            simp only
            rw [hn, Res.ok_bind]
            simp only
            have : mapperAt h' ma = .ok m0 := by unfold mapperAt; rw [get_ok e' l2]; rfl
            rw [this, Res.ok_bind]
      | @hyphen p hf tk _ _ htk ht =>
        cases rest0 with
        | none => rw [← hrest] at ht; cases ht.1
        | some l =>
          obtain ⟨l', m, h1, h2⟩ := ht
          rw [← hrest, Option.some.injEq] at h1
          subst h1
          exact hyphen_gives hall e hc hlt hsub htk h2
      | @stop w cw ws _ _ ew hcw ht =>
        cases rest0 with
        | none => rw [← hrest] at ht; cases ht
        | some l =>
          obtain ⟨l', m, h1, h2⟩ := ht
          rw [← hrest, Option.some.injEq] at h1
          subst h1
          have hnext : ∀ n, next (n + 1) r h = stopLoop (next n sub) ws n 0 h := by
            intro n
            show (get h r >>= _) = _
            rw [get_ok e hc, Res.ok_bind]
            simp only
            have : wordsAt h w = .ok ws := by unfold wordsAt; rw [get_ok ew hcw]; rfl
            rw [this, Res.ok_bind]
          have hloop := stop_loop hall ws l 0 h cl0 hsub
          cases rest with
          | nil =>
            have hn := drain_nil h2
            simp only [Res.ok.injEq] at hn
            rw [hn] at hloop
            obtain ⟨h', N, c1, n1, r1⟩ := hloop
            refine ⟨h', N + 1, c1.mono (by omega), ?_, ?_⟩
            · intro n hn'
              obtain ⟨n, rfl⟩ : ∃ k, n = k + 1 := ⟨n - 1, by omega⟩
              rw [hnext]
              exact n1 n n (by omega) (by omega)
            · refine .filt (c1.top e hlt) hc hlt r1 ((Layer.stop ew hcw ?_).frame (c1.layer _))
              exact ⟨[], 1, rfl, drain_none rfl⟩
          | cons t ts =>
            obtain ⟨s', m', h3, h4⟩ := drain_cons h2
            simp only [Res.ok.injEq] at h3
            rw [h3] at hloop
            obtain ⟨h', N, cl', c1, n1, t1, r1⟩ := hloop
            refine ⟨h', N + 1, cl', c1.mono (by omega), ?_, t1, ?_⟩
            · intro n hn'
              obtain ⟨n, rfl⟩ : ∃ k, n = k + 1 := ⟨n - 1, by omega⟩
              rw [hnext]
              exact n1 n n (by omega) (by omega)
            · have := Rep.filt (c1.top e hlt) hc hlt r1 ((Layer.stop ew hcw (rest := some s') (rest' := some ts) ⟨ts, m', rfl, h4⟩).frame (c1.layer _))
              rw [Bool.and_true] at this
              exact this

theorem next_ok {h : Heap} {b r : Ref} {z fs cl} {rest : List Token} (hr : Rep h b r z fs (some rest) cl) : Gives b r z fs rest h :=
  all_give fs.length b r z fs rfl h rest cl hr

end Ferret.TS
