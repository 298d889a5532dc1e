import Verif.Lemmas.TokenStreams

/-! Chains of token streams: what they are yet to give (C96). -/

namespace Ferret.TS
open Ferret Ferret.Spec Ferret.Ana

local notation "Ref" => Nat

/-! ### Draining -/

theorem drain_nil {σ : Type} {nx : σ → Res (Option (Token × σ))} {n : Nat} {s : σ} (h : drain nx n s = .ok []) : nx s = .ok none := by
  cases n with
  | zero => simp [drain] at h
  | succ n =>
    simp only [drain] at h
    obtain ⟨r, h1, h2⟩ := Res.bind_eq_ok.1 h
    cases r with
    | none => exact h1
    | some p =>
      obtain ⟨t, s'⟩ := p
      simp only at h2
      obtain ⟨l, _, h4⟩ := Res.bind_eq_ok.1 h2
      cases h4

theorem drain_cons {σ : Type} {nx : σ → Res (Option (Token × σ))} {n : Nat} {s : σ} {t : Token} {l : List Token} (h : drain nx n s = .ok (t :: l)) :
    ∃ s' m, nx s = .ok (some (t, s')) ∧ drain nx m s' = .ok l := by
  cases n with
  | zero => simp [drain] at h
  | succ n =>
    simp only [drain] at h
    obtain ⟨r, h1, h2⟩ := Res.bind_eq_ok.1 h
    cases r with
    | none => cases h2
    | some p =>
      obtain ⟨t', s'⟩ := p
      simp only at h2
      obtain ⟨l', h3, h4⟩ := Res.bind_eq_ok.1 h2
      cases h4
      exact ⟨s', n, h1, h3⟩

theorem drain_none {σ : Type} {nx : σ → Res (Option (Token × σ))} {s : σ} (h : nx s = .ok none) : drain nx 1 s = .ok [] := by
  simp [drain, h]

/-! ### Steps of filters -/

/-- The filter of those that change tokens one by one. -/
def plainFilter : Plain → Option Filter
  | .lower L => some (.lower L)
  | .mbLower L => some (.mbLower L)
  | .stem (some f) => some (.stem f)
  | .stem none => none

def plainNext : Plain → List Token → Res (Option (Token × List Token))
  | .lower L, l => .ok (lcfNext L l)
  | .mbLower L, l => mbLcfNext L l
  | .stem (some f), l => .ok (stemNext f l)
  | .stem none, _ => .ub

/-- A step that takes tokens one by one. -/
def Single (nx : List Token → Res (Option (Token × List Token))) (f : Token → Res Token) : Prop :=
  nx [] = .ok none ∧ ∀ t l, nx (t :: l) = f t >>= fun t' => .ok (some (t', l))

theorem plain_single {p : Plain} {f : Filter} (h : plainFilter p = some f) : Single (plainNext p) (plainToken p) := by
  cases p with
  | lower L => exact ⟨rfl, fun t l => rfl⟩
  | mbLower L =>
    refine ⟨rfl, fun t l => ?_⟩
    show mbLcfNext L (t :: l) = one (mbLcfNext L [t]) >>= _
    simp only [mbLcfNext, one]
    cases hm : mbstowcs L 255 t.text with
    | none => rfl
    | some ws =>
      cases ws with
      | nil => rfl
      | cons w ws =>
        dsimp only
        cases hw : wcstombs L 255 ((w :: ws).map L.toLower) [] with
        | none => rfl
        | some bs =>
          dsimp only
          by_cases h1 : bs = []
          · rw [if_pos h1, if_pos h1]; rfl
          · rw [if_neg h1, if_neg h1]
            by_cases h2 : bs.length < 255
            · rw [if_pos h2, if_pos h2]; rfl
            · rw [if_neg h2, if_neg h2]; rfl
  | stem f =>
    cases f with
    | none => cases h
    | some f => exact ⟨rfl, fun t l => rfl⟩

theorem map_single (m : MultiMap.Mapper) : Single (mfNext m) (fun t => one (mfNext m [t])) := by
  refine ⟨rfl, fun t l => ?_⟩
  simp only [mfNext, one]
  cases m.mapLen t.text 255 <;> rfl

theorem plain_tokens {p : Plain} {f : Filter} (h : plainFilter p = some f) {l l' : List Token} (hl : f.tokens l = .ok l') : ∃ n, drain (plainNext p) n l = .ok l' := by
  cases p with
  | lower L => cases h; exact ⟨_, hl⟩
  | mbLower L => cases h; exact ⟨_, hl⟩
  | stem g =>
    cases g with
    | none => cases h
    | some g => cases h; exact ⟨_, hl⟩

/-- The address of the token does not matter to what a hyphen filter gives. -/
theorem hfNext_tk (p : Byte → Bool) (hf : Hf) (a b : Token) (l : List Token) : hfNext p { hf with tk := some a } l = hfNext p { hf with tk := some b } l := rfl

theorem hfNext_pending {p : Byte → Bool} {hf : Hf} (hp : hf.pos < hf.len) (t : Token) (l : List Token) :
    ∃ t' hf', hfNext p { hf with tk := some t } l = .ok (some (t', hf', l)) := by
  unfold hfNext
  exact ⟨_, _, if_pos hp⟩

/-- With a token of the stream below. -/
theorem hfNext_one {p : Byte → Bool} {hf : Hf} (hp : ¬ hf.pos < hf.len) (t u : Token) (l : List Token) :
    hfNext p { hf with tk := some u } (t :: l) = (hfNext p { hf with tk := some u } [t] >>= fun o => match o with | none => .ub | some (t', hf', _) => .ok (some (t', hf', l))) := by
  unfold hfNext
  rw [if_neg (by exact hp), if_neg (by exact hp)]
  simp only
  cases h : t.text with
  | nil => rfl
  | cons b bs =>
    simp only
    by_cases hs : ((hfScan p bs false).1 && !(hfScan p bs false).2) = true
    · rw [if_pos hs, if_pos hs]; rfl
    · rw [if_neg hs, if_neg hs]; rfl

/-- Whatever the filter holds afterwards, it holds a token. -/
theorem hfNext_keeps {p : Byte → Bool} {hf hf' : Hf} {u t : Token} {l l' : List Token} (h : hfNext p { hf with tk := some u } l = .ok (some (t, hf', l'))) :
    hf' = { hf' with tk := some t } := by
  unfold hfNext at h
  by_cases hp : hf.pos < hf.len
  · rw [if_pos (by exact hp)] at h
    simp only [Res.ok.injEq, Option.some.injEq, Prod.mk.injEq] at h
    obtain ⟨h1, h2, _⟩ := h
    rw [← h2, ← h1]
  · rw [if_neg (by exact hp)] at h
    cases l with
    | nil => cases h
    | cons x l =>
      simp only at h
      cases hx : x.text with
      | nil => rw [hx] at h; cases h
      | cons b bs =>
        rw [hx] at h
        simp only at h
        split at h
        · simp only [Res.ok.injEq, Option.some.injEq, Prod.mk.injEq] at h
          obtain ⟨h1, h2, _⟩ := h
          rw [← h2, ← h1]
        · simp only [Res.ok.injEq, Option.some.injEq, Prod.mk.injEq] at h
          obtain ⟨h1, h2, _⟩ := h
          rw [← h2, ← h1]

theorem hf_tk_eq {hf : Hf} {t u : Token} (h : hf = { hf with tk := some t }) : ∀ (p : Byte → Bool) (l : List Token), hfNext p { hf with tk := some u } l = hfNext p hf l := by
  intro p l
  rw [hfNext_tk p hf u t l, ← h]

/-- So draining does not depend on it either. -/
theorem hf_drain_tk (p : Byte → Bool) (hf : Hf) (a b : Token) (l : List Token) : ∀ n,
    drain (fun s => hfNext p s.1 s.2) n ({ hf with tk := some a }, l) = drain (fun s => hfNext p s.1 s.2) n ({ hf with tk := some b }, l) := by
  intro n
  cases n with
  | zero => rfl
  | succ n => rfl

def someToken : Token := ⟨[], 0, 0, 0⟩

/-! ### Chains -/

/-- What a filter gives of what the stream below gives; none before there is a text. -/
def Thru (nx : List Token → Res (Option (Token × List Token))) (rest rest' : Option (List Token)) : Prop :=
  match rest with
  | none => rest' = none
  | some l => ∃ l' n, rest' = some l' ∧ drain nx n l = .ok l'

/-- What a hyphen filter gives. -/
def HyThru (p : Byte → Bool) (hf : Hf) (rest rest' : Option (List Token)) : Prop :=
  match rest with
  | none => rest' = none ∧ ¬ hf.pos < hf.len
  | some l => ∃ l' n, rest' = some l' ∧ drain (fun s => hfNext p s.1 s.2) n ({ hf with tk := some someToken }, l) = .ok l'

/-- A filter with what it is made of; the flag says that it is not within a token. -/
inductive Layer (h : Heap) (b : Ref) : Kind → Filter → Option (List Token) → Option (List Token) → Bool → Prop where
  | plain {p f rest rest'} : plainFilter p = some f → Thru (plainNext p) rest rest' → Layer h b (.plain p) f rest rest' true
  | stop {w c ws rest rest'} : h[w]? = some ⟨c, .words ws⟩ → 0 < c → Thru (fun s => .ok (sfNext ws 0 s)) rest rest' → Layer h b (.stop w) (.stop ws) rest rest' true
  | map {m c m0 mm rest rest'} : h[m]? = some ⟨c, .mapper m0⟩ → 0 < c → (m0 = mm ∨ (m0.dfa = none ∧ m0.compile = .ok mm ∧ rest = none)) → mm.dfa.isSome = true →
      Thru (mfNext mm) rest rest' → Layer h b (.map m) (.map mm) rest rest' true
  | hyphen {p hf tk rest rest'} : (hf.pos < hf.len → tk = some b) → HyThru p hf rest rest' → Layer h b (.hyphen p hf tk) (.hyphen p) rest rest' (!decide (hf.pos < hf.len))

/-- The stream at `r`, with the tokenizer at `b`: what it consists of, what it is yet to give, and whether no filter is within a token. -/
inductive Rep (h : Heap) (b : Ref) : Ref → (List Byte → Res (List Token)) → List Filter → Option (List Token) → Bool → Prop where
  | tz {c z text pos tok rest} : h[b]? = some ⟨c, .tz z text pos tok b⟩ → 0 < c →
      (match text with | none => rest = none | some t => ∃ l, z t = .ok l ∧ rest = some (l.drop pos)) → Rep h b b z [] rest true
  | filt {r c k sub z fs rest cl f rest' lc} : h[r]? = some ⟨c, .filt k sub b⟩ → 0 < c → sub < r → Rep h b sub z fs rest cl → Layer h b k f rest rest' lc →
      Rep h b r z (fs ++ [f]) rest' (cl && lc)

theorem Rep.base {h : Heap} {b r : Ref} {z fs rest cl} (hr : Rep h b r z fs rest cl) : ∃ c text pos tok, h[b]? = some ⟨c, .tz z text pos tok b⟩ ∧ 0 < c := by
  induction hr with
  | tz e hc _ => exact ⟨_, _, _, _, e, hc⟩
  | filt _ _ _ _ _ ih => exact ih

theorem Rep.top {h : Heap} {b r : Ref} {z fs rest cl} (hr : Rep h b r z fs rest cl) : ∃ o, h[r]? = some o ∧ 0 < o.cnt ∧ o.chain = some b := by
  cases hr with
  | tz e hc _ => exact ⟨_, e, hc, rfl⟩
  | filt e hc _ _ _ => exact ⟨_, e, hc, rfl⟩

theorem Rep.le {h : Heap} {b r : Ref} {z fs rest cl} (hr : Rep h b r z fs rest cl) : b ≤ r := by
  induction hr with
  | tz _ _ _ => exact Nat.le_refl _
  | filt _ _ h _ _ ih => omega

/-! ### Frames -/

/-- Nothing of a chain changes: nodes stay, but mappers may be compiled. -/
def NodeLe (a b : Node) : Prop := b = a ∨ ∃ m m', a = .mapper m ∧ b = .mapper m' ∧ m.dfa = none ∧ m.compile = .ok m'

/-- Only chains in `P` change, at addresses up to `u`. -/
def Ext (P : Ref → Prop) (h h' : Heap) : Prop :=
  ∀ (x : Ref) (o : Obj), h[x]? = some o → 0 < o.cnt → o.isPfa = false → ∃ o', h'[x]? = some o' ∧ 0 < o'.cnt ∧ ((∃ c, o.chain = some c ∧ P c) ∨ NodeLe o.node o'.node)

theorem compile_some {m m' : MultiMap.Mapper} (h : m.compile = .ok m') : m'.dfa.isSome = true := by
  unfold MultiMap.Mapper.compile at h
  obtain ⟨n, _, h2⟩ := Res.bind_eq_ok.1 h
  obtain ⟨r, _, h4⟩ := Res.bind_eq_ok.1 h2
  cases h4; rfl

theorem Layer.frame {h h' : Heap} {b : Ref} {k f rest rest' lc} (hl : Layer h b k f rest rest' lc)
    (hx : ∀ x ∈ k.refs, ∀ o, h[x]? = some o → 0 < o.cnt → o.chain = none → o.isPfa = false → ∃ o', h'[x]? = some o' ∧ 0 < o'.cnt ∧ NodeLe o.node o'.node) : Layer h' b k f rest rest' lc := by
  cases hl with
  | plain h1 h2 => exact .plain h1 h2
  | stop e hc ht =>
    obtain ⟨⟨c', nd⟩, e', hc', hn⟩ := hx _ (by simp [Kind.refs]) _ e hc rfl rfl
    rcases hn with hn | ⟨m, m', hm, _⟩
    · simp only at hn; subst hn; exact .stop e' hc' ht
    · cases hm
  | map e hc hor hs ht =>
    obtain ⟨⟨c', nd⟩, e', hc', hn⟩ := hx _ (by simp [Kind.refs]) _ e hc rfl rfl
    rcases hn with hn | ⟨m, m', hm, hm', hd, hcomp⟩
    · simp only at hn; subst hn; exact .map e' hc' hor hs ht
    · simp only [Node.mapper.injEq] at hm
      simp only at hm'
      subst hm hm'
      rcases hor with rfl | ⟨_, h2, _⟩
      · rw [hd] at hs; cases hs
      · rw [hcomp] at h2; cases h2
        exact .map e' hc' (.inl rfl) hs ht
  | hyphen h1 h2 => exact .hyphen h1 h2

theorem Rep.frame {P : Ref → Prop} {h h' : Heap} {b r : Ref} {z fs rest cl} (hr : Rep h b r z fs rest cl) (hb : ¬ P b) (hx : Ext P h h') : Rep h' b r z fs rest cl := by
  induction hr with
  | tz e hc ht =>
    obtain ⟨⟨c', nd⟩, e', hc', hn⟩ := hx _ _ e hc rfl
    rcases hn with ⟨c, h1, h2⟩ | hn | ⟨m, m', hm, _⟩
    · simp only [Obj.chain, Option.some.injEq] at h1; subst h1; exact absurd h2 hb
    · simp only at hn; subst hn; exact .tz e' hc' ht
    · cases hm
  | filt e hc hlt _ hl ih =>
    obtain ⟨⟨c', nd⟩, e', hc', hn⟩ := hx _ _ e hc rfl
    rcases hn with ⟨c, h1, h2⟩ | hn | ⟨m, m', hm, _⟩
    · simp only [Obj.chain, Option.some.injEq] at h1; subst h1; exact absurd h2 hb
    · simp only at hn; subst hn
      refine .filt e' hc' hlt ih (hl.frame ?_)
      intro x _ o ex lx cx px
      obtain ⟨o', ex', lx', hn'⟩ := hx x o ex lx px
      rcases hn' with ⟨c, h1, _⟩ | hn'
      · rw [cx] at h1; cases h1
      · exact ⟨o', ex', lx', hn'⟩
    · cases hm

theorem Layer.live {h h' : Heap} {b : Ref} {k f rest rest' lc} (hl : Layer h b k f rest rest' lc) (hx : ∀ x ∈ k.refs, ∃ o', h'[x]? = some o' ∧ 0 < o'.cnt) (hless : Less h h') :
    Layer h' b k f rest rest' lc := by
  refine hl.frame ?_
  intro x hxm o ex lx _ _
  obtain ⟨o', e', l'⟩ := hx x hxm
  obtain ⟨o1, e1, _, n1⟩ := hless.2 x o' e' l'
  rw [ex] at e1; cases e1
  exact ⟨o', e', l', .inl n1.symm⟩

/-- Giving up other things leaves a chain as it is. -/
theorem Rep.less {h h' : Heap} {R : List Ref} {b r : Ref} {z fs rest cl} (hr : Rep h b r z fs rest cl) (hg : Good h' R) (hless : Less h h')
    (hlive : ∃ o', h'[r]? = some o' ∧ 0 < o'.cnt) : Rep h' b r z fs rest cl := by
  induction hr with
  | tz e hc ht =>
    obtain ⟨⟨c', nd⟩, e', l'⟩ := hlive
    obtain ⟨o1, e1, _, n1⟩ := hless.2 _ _ e' l'
    rw [e] at e1; cases e1
    simp only at n1; subst n1
    exact .tz e' l' ht
  | filt e hc hlt _ hl ih =>
    obtain ⟨⟨c', nd⟩, e', l'⟩ := hlive
    obtain ⟨o1, e1, _, n1⟩ := hless.2 _ _ e' l'
    rw [e] at e1; cases e1
    simp only at n1; subst n1
    refine .filt e' l' hlt (ih (hg.live (.inr (mem_allRefs e' (by simp [Obj.refs]))))) (hl.live ?_ hless)
    intro x hx
    exact hg.live (.inr (mem_allRefs e' (by simp [Obj.refs, hx])))

end Ferret.TS
