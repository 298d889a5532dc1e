import Verif.Model.Scorer

/-!
The scorer contract: a scorer with state `s` is at document `lo` (-1 before the first move) of
the set of documents `v.docs`, and its moves go to the next such document.
-/

namespace Ferret.Scorer

variable {σ ρ ε S : Type} {P : Prop}

/-- What a scorer enumerates: its documents, their scores, the contribution to the enclosing
coordinator, and whether `skip_to` is promised to work. -/
structure View (S : Type) where
  docs : Int → Bool
  sc : Int → S
  cnt : Int → Nat
  skips : Bool

/-- `d` is the first document of `v` after `lo`. -/
def NextAfter (v : View S) (lo d : Int) : Prop :=
  v.docs d = true ∧ lo < d ∧ ∀ x, v.docs x = true → lo < x → d ≤ x

/-- The outcome `r` of a move that looks for the first document after `lo`. -/
def Moved (o : Ops σ S) (R : σ → View S → Int → Bool → Prop) (v : View S) (lo : Int) (s : σ)
    (r : Bool × σ) : Prop :=
  (r.1 = true ∧ ∃ d, NextAfter v lo d ∧ R r.2 v d false ∧ o.left r.2 < o.left s) ∨
  (r.1 = false ∧ ∀ x, v.docs x = true → x ≤ lo)

/-- The contract between the function pointers and the relation `R s v lo scored`. The score is
only promised under `P` (later: exact arithmetic), everything else holds without it. -/
structure Good (P : Prop) (o : Ops σ S) (R : σ → View S → Int → Bool → Prop) : Prop where
  lo : ∀ {s v lo b}, R s v lo b → -1 ≤ lo ∧ (0 ≤ lo → v.docs lo = true)
  nonneg : ∀ {s v lo b x}, R s v lo b → v.docs x = true → 0 ≤ x
  next : ∀ {s v lo b}, R s v lo b → ∃ r, o.next s = .ok r ∧ Moved o R v lo s r
  skip : ∀ {s v lo b n}, R s v lo b → v.skips = true → lo < n →
    ∃ r, o.skipTo s n = .ok r ∧ Moved o R v (n - 1) s r
  doc : ∀ {s v lo b}, R s v lo b → 0 ≤ lo → o.doc s = lo
  score : ∀ {s v lo}, R s v lo false → 0 ≤ lo →
    ∃ x s', o.score s = .ok (x, v.cnt lo, s') ∧ (P → x = v.sc lo) ∧ R s' v lo true ∧ o.left s' ≤ o.left s

/-- Contract relation of `sumOps`. -/
def sumR (Ra : ρ → View S → Int → Bool → Prop) (Rb : ε → View S → Int → Bool → Prop) :
    ρ ⊕ ε → View S → Int → Bool → Prop
  | .inl s => Ra s
  | .inr s => Rb s

theorem good_sum {a : Ops ρ S} {b : Ops ε S} {Ra Rb} (ga : Good P a Ra) (gb : Good P b Rb) :
    Good P (sumOps a b) (sumR Ra Rb) where
  lo := by
    intro s v lo f h
    cases s with
    | inl s => exact ga.lo h
    | inr s => exact gb.lo h
  nonneg := by
    intro s v lo f x h
    cases s with
    | inl s => exact ga.nonneg h
    | inr s => exact gb.nonneg h
  next := by
    intro s v lo f h
    cases s with
    | inl s =>
      obtain ⟨r, h1, h2⟩ := ga.next h
      refine ⟨(r.1, .inl r.2), by simp [sumOps, h1], ?_⟩
      rcases h2 with ⟨e, d, h3, h4, h5⟩ | ⟨e, h3⟩
      · exact .inl ⟨e, d, h3, h4, h5⟩
      · exact .inr ⟨e, h3⟩
    | inr s =>
      obtain ⟨r, h1, h2⟩ := gb.next h
      refine ⟨(r.1, .inr r.2), by simp [sumOps, h1], ?_⟩
      rcases h2 with ⟨e, d, h3, h4, h5⟩ | ⟨e, h3⟩
      · exact .inl ⟨e, d, h3, h4, h5⟩
      · exact .inr ⟨e, h3⟩
  skip := by
    intro s v lo f n h hs hn
    cases s with
    | inl s =>
      obtain ⟨r, h1, h2⟩ := ga.skip h hs hn
      refine ⟨(r.1, .inl r.2), by simp [sumOps, h1], ?_⟩
      rcases h2 with ⟨e, d, h3, h4, h5⟩ | ⟨e, h3⟩
      · exact .inl ⟨e, d, h3, h4, h5⟩
      · exact .inr ⟨e, h3⟩
    | inr s =>
      obtain ⟨r, h1, h2⟩ := gb.skip h hs hn
      refine ⟨(r.1, .inr r.2), by simp [sumOps, h1], ?_⟩
      rcases h2 with ⟨e, d, h3, h4, h5⟩ | ⟨e, h3⟩
      · exact .inl ⟨e, d, h3, h4, h5⟩
      · exact .inr ⟨e, h3⟩
  doc := by
    intro s v lo f h
    cases s with
    | inl s => exact ga.doc h
    | inr s => exact gb.doc h
  score := by
    intro s v lo h h0
    cases s with
    | inl s =>
      obtain ⟨x, s', h1, hx, h2, h3⟩ := ga.score h h0
      exact ⟨x, .inl s', by simp [sumOps, h1], hx, h2, h3⟩
    | inr s =>
      obtain ⟨x, s', h1, hx, h2, h3⟩ := gb.score h h0
      exact ⟨x, .inr s', by simp [sumOps, h1], hx, h2, h3⟩

theorem NextAfter.of_iff {u v : View S} {lo d : Int} (h : NextAfter u lo d)
    (he : ∀ x, v.docs x = true ↔ u.docs x = true) : NextAfter v lo d :=
  ⟨(he d).mpr h.1, h.2.1, fun x hx hl => h.2.2 x ((he x).mp hx) hl⟩

/-! ### SingleMatchScorer -/

def singleR (R : σ → View S → Int → Bool → Prop) (s : Single σ) (v : View S) (lo : Int) (b : Bool) : Prop :=
  ∃ u, R s.sub u lo b ∧ (∀ x, v.docs x = true ↔ u.docs x = true) ∧ (∀ x, v.docs x = true → v.sc x = u.sc x) ∧
    (∀ x, v.docs x = true → v.cnt x = 1) ∧ (v.skips = true → u.skips = true) ∧ (0 ≤ lo → s.doc = lo)

theorem good_single {o : Ops σ S} {R} (g : Good P o R) : Good P (singleOps o) (singleR R) where
  lo := by
    rintro s v lo b ⟨u, h, hd, _⟩
    exact ⟨(g.lo h).1, fun h0 => (hd lo).mpr ((g.lo h).2 h0)⟩
  nonneg := by
    rintro s v lo b x ⟨u, h, hd, _⟩ hx
    exact g.nonneg h ((hd x).mp hx)
  next := by
    rintro s v lo b ⟨u, h, hd, hs, hc, hk, hdoc⟩
    obtain ⟨r, h1, h2⟩ := g.next h
    refine ⟨_, by simp only [singleOps, h1, Res.ok_bind]; rfl, ?_⟩
    rcases h2 with ⟨e, d, h3, h4, h5⟩ | ⟨e, h3⟩
    · refine .inl ⟨e, d, h3.of_iff hd, ?_, by simp only [e, if_true]; exact h5⟩
      rw [if_pos e]
      exact ⟨u, h4, hd, hs, hc, hk, fun h0 => g.doc h4 h0⟩
    · exact .inr ⟨e, fun x hx => h3 x ((hd x).mp hx)⟩
  skip := by
    rintro s v lo b n ⟨u, h, hd, hs, hc, hk, hdoc⟩ hsk hn
    obtain ⟨r, h1, h2⟩ := g.skip h (hk hsk) hn
    refine ⟨_, by simp only [singleOps, h1, Res.ok_bind]; rfl, ?_⟩
    rcases h2 with ⟨e, d, h3, h4, h5⟩ | ⟨e, h3⟩
    · refine .inl ⟨e, d, h3.of_iff hd, ?_, by simp only [e, if_true]; exact h5⟩
      rw [if_pos e]
      exact ⟨u, h4, hd, hs, hc, hk, fun h0 => g.doc h4 h0⟩
    · exact .inr ⟨e, fun x hx => h3 x ((hd x).mp hx)⟩
  doc := by
    rintro s v lo b ⟨u, h, hd, hs, hc, hk, hdoc⟩ h0
    exact hdoc h0
  score := by
    rintro s v lo ⟨u, h, hd, hs, hc, hk, hdoc⟩ h0
    obtain ⟨x, s', h1, hx, h2, h3⟩ := g.score h h0
    have hv : v.docs lo = true := (hd lo).mpr ((g.lo h).2 h0)
    refine ⟨x, ⟨s', s.doc⟩, ?_, fun hp => by rw [hs lo hv, hx hp], ⟨u, h2, hd, hs, hc, hk, hdoc⟩, h3⟩
    simp [singleOps, h1, hc lo hv]

/-! ### ReqOptSumScorer -/

/-- Position of the optional scorer relative to the current document. -/
def optR (R : ε → View S → Int → Bool → Prop) (opt : Option ε) (first : Bool) (ov : View S) (lo : Int)
    (b : Bool) : Prop :=
  (first = true ∧ ∃ e, opt = some e ∧ R e ov (-1) false ∧ b = false) ∨
  (first = false ∧ opt = none ∧ ∀ y, ov.docs y = true → y < lo) ∨
  (first = false ∧ ∃ e p c, opt = some e ∧ R e ov p c ∧ 0 ≤ p ∧ (∀ y, ov.docs y = true → y < p → y < lo) ∧
    (c = true → p ≤ lo ∧ (b = false → p < lo)))

def reqOptR (A : Arith S) (Ra : ρ → View S → Int → Bool → Prop) (Rb : ε → View S → Int → Bool → Prop)
    (x : ReqOpt ρ ε) (v : View S) (lo : Int) (b : Bool) : Prop :=
  ∃ rv ov, Ra x.req rv lo b ∧ optR Rb x.opt x.firstTimeOpt ov lo b ∧ ov.skips = true ∧
    (∀ d, v.docs d = true ↔ rv.docs d = true) ∧
    (∀ d, v.docs d = true → v.sc d = if ov.docs d then A.add (rv.sc d) (ov.sc d) else rv.sc d) ∧
    (∀ d, v.docs d = true → v.cnt d = rv.cnt d + if ov.docs d then ov.cnt d else 0) ∧
    (v.skips = true → rv.skips = true) ∧ (0 ≤ lo → x.doc = lo)

theorem optR.mono {R : ε → View S → Int → Bool → Prop} {opt f ov lo b d} (h : optR R opt f ov lo b) (hd : lo < d) :
    optR R opt f ov d false := by
  rcases h with ⟨h1, e, h2, h3, h4⟩ | ⟨h1, h2, h3⟩ | ⟨h1, e, p, c, h2, h3, h4, h5, h6⟩
  · exact .inl ⟨h1, e, h2, h3, rfl⟩
  · exact .inr (.inl ⟨h1, h2, fun y hy => by have := h3 y hy; omega⟩)
  · refine .inr (.inr ⟨h1, e, p, c, h2, h3, h4, fun y hy hp => by have := h5 y hy hp; omega, fun hc => ?_⟩)
    have := (h6 hc).1
    exact ⟨by omega, fun _ => by omega⟩

theorem roAdd_spec {A : Arith S} {o : Ops ε S} {R} (g : Good P o R) {e : ε} {ov : View S} {p cur : Int} {c : Bool}
    (h : R e ov p c) (h0 : 0 ≤ p) (hcur : cur ≤ p) (hy : ∀ y, ov.docs y = true → y < p → y < cur)
    (hc : c = true → p < cur) (s : S) (k : Nat) :
    ∃ y e', roAdd A o cur s k e = .ok (y, (k + if ov.docs cur then ov.cnt cur else 0), e') ∧
      (P → y = if ov.docs cur then A.add s (ov.sc cur) else s) ∧ ∃ c', R e' ov p c' ∧ (c' = true → p ≤ cur) := by
  unfold roAdd
  rw [g.doc h h0]
  by_cases hp : p = cur
  · subst hp
    have hcf : c = false := by cases c with
      | false => rfl
      | true => exact absurd (hc rfl) (by omega)
    subst hcf
    obtain ⟨x, e', h1, hx, h2, _⟩ := g.score h h0
    have hv := (g.lo h).2 h0
    rw [if_pos rfl, h1]
    exact ⟨A.add s x, e', by simp [hv], fun hp => by simp [hv, hx hp], true, h2, fun _ => by omega⟩
  · rw [if_neg hp]
    have hnd : ov.docs cur = false := by
      cases hd : ov.docs cur with
      | false => rfl
      | true => exact absurd (hy cur hd (by omega)) (by omega)
    refine ⟨s, e, by simp [hnd], fun _ => by simp [hnd], c, h, fun hcc => ?_⟩
    have := hc hcc
    omega

theorem good_reqOpt {A : Arith S} {a : Ops ρ S} {b : Ops ε S} {Ra Rb} (ga : Good P a Ra) (gb : Good P b Rb) :
    Good P (reqOptOps A a b) (reqOptR A Ra Rb) where
  lo := by
    rintro s v lo f ⟨rv, ov, h, _, _, hd, _⟩
    exact ⟨(ga.lo h).1, fun h0 => (hd lo).mpr ((ga.lo h).2 h0)⟩
  nonneg := by
    rintro s v lo f x ⟨rv, ov, h, _, _, hd, _⟩ hx
    exact ga.nonneg h ((hd x).mp hx)
  next := by
    rintro s v lo f ⟨rv, ov, h, ho, hos, hd, hs, hc, hk, hdoc⟩
    obtain ⟨r, h1, h2⟩ := ga.next h
    refine ⟨_, by simp only [reqOptOps, h1, Res.ok_bind]; rfl, ?_⟩
    rcases h2 with ⟨e, d, h3, h4, h5⟩ | ⟨e, h3⟩
    · refine .inl ⟨e, d, h3.of_iff hd, ?_, by simp only [e, if_true]; exact h5⟩
      rw [if_pos e]
      exact ⟨rv, ov, h4, ho.mono h3.2.1, hos, hd, hs, hc, hk, fun h0 => ga.doc h4 h0⟩
    · exact .inr ⟨e, fun x hx => h3 x ((hd x).mp hx)⟩
  skip := by
    rintro s v lo f n ⟨rv, ov, h, ho, hos, hd, hs, hc, hk, hdoc⟩ hsk hn
    obtain ⟨r, h1, h2⟩ := ga.skip h (hk hsk) hn
    refine ⟨_, by simp only [reqOptOps, h1, Res.ok_bind]; rfl, ?_⟩
    rcases h2 with ⟨e, d, h3, h4, h5⟩ | ⟨e, h3⟩
    · refine .inl ⟨e, d, h3.of_iff hd, ?_, by simp only [e, if_true]; exact h5⟩
      rw [if_pos e]
      exact ⟨rv, ov, h4, ho.mono (by have := h3.2.1; omega), hos, hd, hs, hc, hk, fun h0 => ga.doc h4 h0⟩
    · exact .inr ⟨e, fun x hx => h3 x ((hd x).mp hx)⟩
  doc := by
    rintro s v lo f ⟨rv, ov, h, ho, hos, hd, hs, hc, hk, hdoc⟩ h0
    exact hdoc h0
  score := by
    rintro s v lo ⟨rv, ov, h, ho, hos, hd, hs, hc, hk, hdoc⟩ h0
    obtain ⟨x, s', h1, hx, h2, h3⟩ := ga.score h h0
    have hv : v.docs lo = true := (hd lo).mpr ((ga.lo h).2 h0)
    rw [hs lo hv, hc lo hv]
    simp only [reqOptOps, roScore]
    rw [h1, Res.ok_bind, ga.doc h h0]
    simp only []
    rcases ho with ⟨hf, e, he, hr, _⟩ | ⟨hf, he, hn⟩ | ⟨hf, e, p, c, he, hr, hp0, hy, hcc⟩
    · rw [if_pos hf, he]
      simp only []
      obtain ⟨k, k1, k2⟩ := gb.skip (n := lo) hr hos (by omega)
      rw [k1, Res.ok_bind]
      rcases k2 with ⟨e1, d, e2, e3, _⟩ | ⟨e1, e2⟩
      · rw [if_pos e1]
        have e21 := e2.2.1
        obtain ⟨y, e', a1, ay, c', a2, a3⟩ := roAdd_spec (A := A) gb e3 (by omega) (cur := lo) (by omega)
          (fun y hy hyd => by
            by_cases hl : lo ≤ y
            · have := e2.2.2 y hy (by omega); omega
            · omega) (by simp) x (rv.cnt lo)
        rw [a1, Res.ok_bind]
        refine ⟨_, _, rfl, fun hp => by rw [ay hp, hx hp], ⟨rv, ov, h2, ?_, hos, hd, hs, hc, hk, hdoc⟩, h3⟩
        refine .inr (.inr ⟨rfl, e', d, c', rfl, a2, by omega, ?_, ?_⟩)
        · intro y hy hyd
          by_cases hl : lo ≤ y
          · have := e2.2.2 y hy (by omega); omega
          · omega
        · intro hc'; exact ⟨a3 hc', by simp⟩
      · rw [if_neg (by simp [e1])]
        have hnd : ov.docs lo = false := by
          cases hdd : ov.docs lo with
          | false => rfl
          | true => have := e2 lo hdd; omega
        simp only [hnd, Bool.false_eq_true, if_false, Nat.add_zero]
        refine ⟨_, _, rfl, hx, ⟨rv, ov, h2, ?_, hos, hd, hs, hc, hk, hdoc⟩, h3⟩
        exact .inr (.inl ⟨rfl, rfl, fun y hy => by have := e2 y hy; omega⟩)
    · rw [if_neg (by simp [hf]), he]
      simp only []
      have hnd : ov.docs lo = false := by
        cases hdd : ov.docs lo with
        | false => rfl
        | true => have := hn lo hdd; omega
      simp only [hnd, Bool.false_eq_true, if_false, Nat.add_zero]
      refine ⟨_, _, rfl, hx, ⟨rv, ov, h2, ?_, hos, hd, hs, hc, hk, hdoc⟩, h3⟩
      exact .inr (.inl ⟨hf, rfl, hn⟩)
    · rw [if_neg (by simp [hf]), he]
      simp only []
      rw [gb.doc hr hp0]
      by_cases hlt : p < lo
      · rw [if_pos hlt]
        obtain ⟨k, k1, k2⟩ := gb.skip (n := lo) hr hos hlt
        rw [k1, Res.ok_bind]
        rcases k2 with ⟨e1, d, e2, e3, _⟩ | ⟨e1, e2⟩
        · rw [if_pos e1]
          have e21 := e2.2.1
          obtain ⟨y, e', a1, ay, c', a2, a3⟩ := roAdd_spec (A := A) gb e3 (by omega) (cur := lo) (by omega)
            (fun y hy hyd => by
              by_cases hl : lo ≤ y
              · have := e2.2.2 y hy (by omega); omega
              · omega) (by simp) x (rv.cnt lo)
          rw [a1, Res.ok_bind]
          refine ⟨_, _, rfl, fun hp => by rw [ay hp, hx hp], ⟨rv, ov, h2, ?_, hos, hd, hs, hc, hk, hdoc⟩, h3⟩
          refine .inr (.inr ⟨hf, e', d, c', rfl, a2, by omega, ?_, ?_⟩)
          · intro y hy hyd
            by_cases hl : lo ≤ y
            · have := e2.2.2 y hy (by omega); omega
            · omega
          · intro hc'; exact ⟨a3 hc', by simp⟩
        · rw [if_neg (by simp [e1])]
          have hnd : ov.docs lo = false := by
            cases hdd : ov.docs lo with
            | false => rfl
            | true => have := e2 lo hdd; omega
          simp only [hnd, Bool.false_eq_true, if_false, Nat.add_zero]
          refine ⟨_, _, rfl, hx, ⟨rv, ov, h2, ?_, hos, hd, hs, hc, hk, hdoc⟩, h3⟩
          exact .inr (.inl ⟨hf, rfl, fun y hy => by have := e2 y hy; omega⟩)
      · rw [if_neg hlt]
        obtain ⟨y, e', a1, ay, c', a2, a3⟩ := roAdd_spec (A := A) gb hr hp0 (cur := lo) (by omega) hy
          (fun h' => (hcc h').2 rfl) x (rv.cnt lo)
        rw [a1, Res.ok_bind]
        refine ⟨_, _, rfl, fun hp => by rw [ay hp, hx hp], ⟨rv, ov, h2, ?_, hos, hd, hs, hc, hk, hdoc⟩, h3⟩
        exact .inr (.inr ⟨hf, e', p, c', rfl, a2, hp0, hy, fun hc' => ⟨a3 hc', by simp⟩⟩)

/-! ### ReqExclScorer -/

/-- The excluded scorer is past every excluded document at or below `lo`. -/
def exclR (R : ε → View S → Int → Bool → Prop) (excl : Option ε) (ev : View S) (lo : Int) : Prop :=
  (excl = none ∧ ∀ y, ev.docs y = true → y ≤ lo) ∨
  (∃ e p c, excl = some e ∧ R e ev p c ∧ 0 ≤ p ∧ ∀ y, ev.docs y = true → y < p → y ≤ lo)

def reqExclR (Ra : ρ → View S → Int → Bool → Prop) (Rb : ε → View S → Int → Bool → Prop)
    (x : ReqExcl ρ ε) (v : View S) (lo : Int) (b : Bool) : Prop :=
  ∃ rv ev r, x.req = some r ∧ Ra r rv lo b ∧ ev.skips = true ∧
    ((x.firstTime = true ∧ lo = -1 ∧ (∃ e, x.excl = some e ∧ Rb e ev (-1) false)) ∨
     (x.firstTime = false ∧ exclR Rb x.excl ev lo ∧ (0 ≤ lo → x.doc = lo ∧ ev.docs lo = false))) ∧
    (∀ d, v.docs d = true ↔ (rv.docs d = true ∧ ev.docs d = false)) ∧
    (∀ d, v.docs d = true → v.sc d = rv.sc d) ∧ (∀ d, v.docs d = true → v.cnt d = rv.cnt d) ∧
    (v.skips = true → rv.skips = true)

/-- Result of `rxsc_to_non_excluded`, from a required scorer standing on `rd`. -/
theorem rxLoop_spec {a : Ops ρ S} {b : Ops ε S} {Ra Rb} (ga : Good P a Ra) (gb : Good P b Rb)
    {v rv ev : View S} (hes : ev.skips = true)
    (hd : ∀ d, v.docs d = true ↔ (rv.docs d = true ∧ ev.docs d = false))
    (hs : ∀ d, v.docs d = true → v.sc d = rv.sc d) (hc : ∀ d, v.docs d = true → v.cnt d = rv.cnt d)
    (hk : v.skips = true → rv.skips = true) (lo : Int) :
    ∀ (fuel : Nat) (r : ρ) (e : ε) (rd ed : Int) (c : Bool) (x : ReqExcl ρ ε), a.left r < fuel →
      Ra r rv rd false → lo < rd → 0 ≤ rd → Rb e ev ed c → 0 ≤ ed → x.firstTime = false →
      (∀ y, ev.docs y = true → y < ed → y < rd) → (∀ y, v.docs y = true → lo < y → rd ≤ y) →
      ∃ q, rxLoop a b fuel r e ed x = .ok q ∧
        ((q.1 = true ∧ ∃ d, NextAfter v lo d ∧ reqExclR Ra Rb q.2 v d false ∧ (reqExclOps a b).left q.2 ≤ a.left r) ∨
         (q.1 = false ∧ ∀ y, v.docs y = true → y ≤ lo)) := by
  intro fuel
  induction fuel with
  | zero => intro r e rd ed c x h; omega
  | succ n ih =>
    intro r e rd ed c x hf hr hlo hrd0 he hed0 hft hy hv
    have hdoc := ga.doc hr hrd0
    have hrv := (ga.lo hr).2 hrd0
    have hev := (gb.lo he).2 hed0
    unfold rxLoop
    simp only [hdoc]
    by_cases h1 : rd < ed
    · rw [if_pos h1]
      have hne : ev.docs rd = false := by
        cases hh : ev.docs rd with
        | false => rfl
        | true => have := hy rd hh h1; omega
      refine ⟨_, rfl, .inl ⟨rfl, rd, ⟨(hd rd).mpr ⟨hrv, hne⟩, hlo, hv⟩, ?_, by simp [reqExclOps]⟩⟩
      refine ⟨rv, ev, r, rfl, hr, hes, .inr ⟨hft, ?_, fun _ => ⟨rfl, hne⟩⟩, hd, hs, hc, hk⟩
      exact .inr ⟨e, ed, c, rfl, he, hed0, fun y h2 h3 => by have := hy y h2 h3; omega⟩
    · rw [if_neg h1]
      -- the step to the next required document after an excluded one
      have again : ∀ (e' : ε) (ed' : Int) (c' : Bool), Rb e' ev ed' c' → 0 ≤ ed' → ev.docs rd = true →
          (∀ y, ev.docs y = true → y < ed' → y ≤ rd) →
          ∃ q, (a.next r >>= fun r' => if r'.1 then rxLoop a b n r'.2 e' ed' x
              else .ok (false, { x with req := none, excl := some e' })) = .ok q ∧
            ((q.1 = true ∧ ∃ d, NextAfter v lo d ∧ reqExclR Ra Rb q.2 v d false ∧ (reqExclOps a b).left q.2 ≤ a.left r) ∨
             (q.1 = false ∧ ∀ y, v.docs y = true → y ≤ lo)) := by
        intro e' ed' c' he' hed' hex hy'
        have hnv : v.docs rd = false := by
          cases hh : v.docs rd with
          | false => rfl
          | true => have := ((hd rd).mp hh).2; rw [hex] at this; cases this
        obtain ⟨r', k1, k2⟩ := ga.next hr
        rw [k1, Res.ok_bind]
        rcases k2 with ⟨e1, d, e2, e3, e4⟩ | ⟨e1, e2⟩
        · rw [if_pos e1]
          have e21 := e2.2.1
          obtain ⟨q, q1, q2⟩ := ih r'.2 e' d ed' c' x (by omega) e3 (by omega) (by omega) he' hed' hft
            (fun y h2 h3 => by have := hy' y h2 h3; omega)
            (fun y h2 h3 => by
              have h4 := hv y h2 h3
              have h5 : y ≠ rd := fun h6 => by rw [h6, hnv] at h2; cases h2
              exact e2.2.2 y ((hd y).mp h2).1 (by omega))
          refine ⟨q, q1, ?_⟩
          rcases q2 with ⟨w1, d', w2, w3, w4⟩ | w
          · exact .inl ⟨w1, d', w2, w3, by omega⟩
          · exact .inr w
        · rw [if_neg (by simp [e1])]
          refine ⟨_, rfl, .inr ⟨rfl, fun y h2 => ?_⟩⟩
          by_cases h3 : lo < y
          · have h4 := hv y h2 h3
            have h5 := e2 y ((hd y).mp h2).1
            have h6 : y = rd := by omega
            rw [h6, hnv] at h2; cases h2
          · omega
      by_cases h2 : rd > ed
      · rw [if_pos h2]
        obtain ⟨k, k1, k2⟩ := gb.skip he hes (n := rd) (by omega)
        rw [k1, Res.ok_bind]
        rcases k2 with ⟨e1, d, e2, e3, _⟩ | ⟨e1, e2⟩
        · rw [if_pos e1]
          have e21 := e2.2.1
          have hkd := gb.doc e3 (by omega)
          rw [hkd]
          by_cases h3 : d > rd
          · rw [if_pos h3]
            have hne : ev.docs rd = false := by
              cases hh : ev.docs rd with
              | false => rfl
              | true => have := e2.2.2 rd hh (by omega); omega
            refine ⟨_, rfl, .inl ⟨rfl, rd, ⟨(hd rd).mpr ⟨hrv, hne⟩, hlo, hv⟩, ?_, by simp [reqExclOps]⟩⟩
            refine ⟨rv, ev, r, rfl, hr, hes, .inr ⟨hft, ?_, fun _ => ⟨rfl, hne⟩⟩, hd, hs, hc, hk⟩
            refine .inr ⟨k.2, d, false, rfl, e3, by omega, fun y h4 h5 => ?_⟩
            by_cases h6 : rd ≤ y
            · have := e2.2.2 y h4 (by omega); omega
            · omega
          · rw [if_neg h3]
            have h4 : d = rd := by omega
            refine again k.2 d false e3 (by omega) (by rw [← h4]; exact e2.1) (fun y _ h6 => by omega)
        · rw [if_neg (by simp [e1])]
          have hne : ev.docs rd = false := by
            cases hh : ev.docs rd with
            | false => rfl
            | true => have := e2 rd hh; omega
          refine ⟨_, rfl, .inl ⟨rfl, rd, ⟨(hd rd).mpr ⟨hrv, hne⟩, hlo, hv⟩, ?_, by simp [reqExclOps]⟩⟩
          refine ⟨rv, ev, r, rfl, hr, hes, .inr ⟨hft, .inl ⟨rfl, fun y hy => by have := e2 y hy; omega⟩, fun _ => ⟨rfl, hne⟩⟩, hd, hs, hc, hk⟩
      · rw [if_neg h2]
        have h3 : ed = rd := by omega
        exact again e ed c he hed0 (by rw [← h3]; exact hev) (fun y _ h5 => by omega)

/-- A move of the required scorer followed by the exclusion loop. -/
theorem rx_after {a : Ops ρ S} {b : Ops ε S} {Ra Rb} (ga : Good P a Ra) (gb : Good P b Rb)
    {v rv ev : View S} (hes : ev.skips = true)
    (hd : ∀ d, v.docs d = true ↔ (rv.docs d = true ∧ ev.docs d = false))
    (hs : ∀ d, v.docs d = true → v.sc d = rv.sc d) (hc : ∀ d, v.docs d = true → v.cnt d = rv.cnt d)
    (hk : v.skips = true → rv.skips = true) {lo : Int} {r0 r : ρ} {d : Int} {x : ReqExcl ρ ε}
    (hft : x.firstTime = false) (hex : exclR Rb x.excl ev lo)
    (hn : NextAfter rv lo d) (hr : Ra r rv d false) (hl : a.left r < a.left r0) :
    ∃ q, (match x.excl with
        | none => Res.ok (true, { x with req := some r, doc := a.doc r })
        | some e => rxLoop a b (a.left r + 1) r e (b.doc e) x) = .ok q ∧
      ((q.1 = true ∧ ∃ d, NextAfter v lo d ∧ reqExclR Ra Rb q.2 v d false ∧ (reqExclOps a b).left q.2 < a.left r0) ∨
       (q.1 = false ∧ ∀ y, v.docs y = true → y ≤ lo)) := by
  have hd0 := ga.nonneg hr hn.1
  have hlo := hn.2.1
  rcases hex with ⟨hx, hy⟩ | ⟨e, p, c, hx, he, hp, hy⟩
  · rw [hx]
    have hne : ev.docs d = false := by
      cases hh : ev.docs d with
      | false => rfl
      | true => have := hy d hh; omega
    refine ⟨_, rfl, .inl ⟨rfl, d, ⟨(hd d).mpr ⟨hn.1, hne⟩, hlo, fun y h1 h2 => hn.2.2 y ((hd y).mp h1).1 h2⟩, ?_,
      by simpa [reqExclOps] using hl⟩⟩
    exact ⟨rv, ev, r, rfl, hr, hes, .inr ⟨hft, .inl ⟨rfl, fun y h1 => by have := hy y h1; omega⟩,
      fun _ => ⟨ga.doc hr hd0, hne⟩⟩, hd, hs, hc, hk⟩
  · rw [hx]
    simp only [gb.doc he hp]
    obtain ⟨q, q1, q2⟩ := rxLoop_spec ga gb hes hd hs hc hk lo (a.left r + 1) r e d p c x (by omega) hr hlo hd0 he hp hft
      (fun y h1 h2 => by have := hy y h1 h2; omega) (fun y h1 h2 => hn.2.2 y ((hd y).mp h1).1 h2)
    refine ⟨q, q1, ?_⟩
    rcases q2 with ⟨w1, d', w2, w3, w4⟩ | w
    · exact .inl ⟨w1, d', w2, w3, by omega⟩
    · exact .inr w

theorem rxFirst_spec {b : Ops ε S} {Rb : ε → View S → Int → Bool → Prop} {ev : View S} {x : ReqExcl ρ ε} {lo lo' : Int}
    (f : ε → Res (Bool × ε)) (hlo' : lo ≤ lo') (hlo0 : -1 ≤ lo')
    (hf : lo = -1 → ∀ e, Rb e ev (-1) false → ∃ r, f e = .ok r ∧ Moved b Rb ev lo' e r)
    (h : (x.firstTime = true ∧ lo = -1 ∧ (∃ e, x.excl = some e ∧ Rb e ev (-1) false)) ∨
     (x.firstTime = false ∧ exclR Rb x.excl ev lo ∧ (0 ≤ lo → x.doc = lo ∧ ev.docs lo = false))) :
    ∃ x', rxFirst f x = .ok x' ∧ x'.firstTime = false ∧ x'.req = x.req ∧ exclR Rb x'.excl ev lo' := by
  unfold rxFirst
  rcases h with ⟨h1, h2, e, h3, h4⟩ | ⟨h1, h2, h3⟩
  · rw [if_pos h1, h3]
    simp only []
    obtain ⟨r, k1, k2⟩ := hf h2 e h4
    rw [k1, Res.ok_bind]
    refine ⟨_, rfl, rfl, rfl, ?_⟩
    rcases k2 with ⟨e1, d, e2, e3, _⟩ | ⟨e1, e2⟩
    · simp only [e1, if_true]
      have e21 := e2.2.1
      refine .inr ⟨_, d, false, rfl, e3, by omega, fun y h5 h6 => ?_⟩
      by_cases h7 : lo' < y
      · have := e2.2.2 y h5 h7; omega
      · omega
    · simp only [e1]
      exact .inl ⟨rfl, e2⟩
  · rw [if_neg (by simp [h1])]
    refine ⟨x, rfl, h1, rfl, ?_⟩
    rcases h2 with ⟨hx, hy⟩ | ⟨e, p, c, hx, he, hp, hy⟩
    · exact .inl ⟨hx, fun y hh => by have := hy y hh; omega⟩
    · exact .inr ⟨e, p, c, hx, he, hp, fun y hh h' => by have := hy y hh h'; omega⟩

theorem good_reqExcl {a : Ops ρ S} {b : Ops ε S} {Ra Rb} (ga : Good P a Ra) (gb : Good P b Rb) :
    Good P (reqExclOps a b) (reqExclR Ra Rb) where
  lo := by
    rintro s v lo f ⟨rv, ev, r, hr, h, hes, hx, hd, _⟩
    refine ⟨(ga.lo h).1, fun h0 => (hd lo).mpr ⟨(ga.lo h).2 h0, ?_⟩⟩
    rcases hx with ⟨_, h2, _⟩ | ⟨_, _, h3⟩
    · omega
    · exact (h3 h0).2
  nonneg := by
    rintro s v lo f x ⟨rv, ev, r, hr, h, hes, hx, hd, _⟩ h1
    exact ga.nonneg h ((hd x).mp h1).1
  next := by
    rintro s v lo f ⟨rv, ev, r, hr, h, hes, hx, hd, hs, hc, hk⟩
    have hlo := (ga.lo h).1
    obtain ⟨x', f1, f2, f3, f4⟩ := rxFirst_spec (ρ := ρ) (b := b) (Rb := Rb) (x := s) (lo := lo) (lo' := lo) b.next (Int.le_refl _) hlo
      (fun hl e he => by rw [hl]; exact gb.next he) hx
    simp only [reqExclOps, f1, Res.ok_bind, rxNext', f3, hr]
    obtain ⟨r', k1, k2⟩ := ga.next h
    rw [k1, Res.ok_bind]
    rcases k2 with ⟨e1, d, e2, e3, e4⟩ | ⟨e1, e2⟩
    · rw [if_neg (by simp [e1])]
      obtain ⟨q, q1, q2⟩ := rx_after ga gb hes hd hs hc hk f2 f4 e2 e3 e4
      refine ⟨q, q1, ?_⟩
      simpa [Moved, reqExclOps, hr] using q2
    · rw [if_pos (by simp [e1])]
      exact ⟨_, rfl, .inr ⟨rfl, fun y hy => e2 y ((hd y).mp hy).1⟩⟩
  skip := by
    rintro s v lo f n ⟨rv, ev, r, hr, h, hes, hx, hd, hs, hc, hk⟩ hsk hn
    have hlo := (ga.lo h).1
    obtain ⟨x', f1, f2, f3, f4⟩ := rxFirst_spec (ρ := ρ) (b := b) (Rb := Rb) (x := s) (lo := lo) (lo' := n - 1)
      (fun e => b.skipTo e n) (by omega) (by omega)
      (fun hl e he => gb.skip he hes (by omega)) hx
    simp only [reqExclOps, f1, Res.ok_bind, rxSkip', f3, hr]
    obtain ⟨r', k1, k2⟩ := ga.skip h (hk hsk) hn
    rw [k1, Res.ok_bind]
    rcases k2 with ⟨e1, d, e2, e3, e4⟩ | ⟨e1, e2⟩
    · obtain ⟨q, q1, q2⟩ := rx_after ga gb hes hd hs hc hk f2 f4 e2 e3 e4
      refine ⟨q, ?_, by simpa [Moved, reqExclOps, hr] using q2⟩
      simp only [e1]
      exact q1
    · simp only [e1]
      cases x'.excl with
      | none => exact ⟨_, rfl, .inr ⟨rfl, fun y hy => e2 y ((hd y).mp hy).1⟩⟩
      | some e => exact ⟨_, rfl, .inr ⟨rfl, fun y hy => e2 y ((hd y).mp hy).1⟩⟩
  doc := by
    rintro s v lo f ⟨rv, ev, r, hr, h, hes, hx, hd, _⟩ h0
    rcases hx with ⟨_, h2, _⟩ | ⟨_, _, h3⟩
    · omega
    · exact (h3 h0).1
  score := by
    rintro s v lo ⟨rv, ev, r, hr, h, hes, hx, hd, hs, hc, hk⟩ h0
    obtain ⟨y, s', h1, hy, h2, h3⟩ := ga.score h h0
    have hv : v.docs lo = true := by
      refine (hd lo).mpr ⟨(ga.lo h).2 h0, ?_⟩
      rcases hx with ⟨_, h2, _⟩ | ⟨_, _, h3⟩
      · omega
      · exact (h3 h0).2
    rw [hs lo hv, hc lo hv]
    simp only [reqExclOps, hr, h1, Res.ok_bind]
    refine ⟨_, _, rfl, hy, ⟨rv, ev, s', rfl, h2, hes, ?_, hd, hs, hc, hk⟩, h3⟩
    rcases hx with ⟨_, h2, _⟩ | h
    · omega
    · exact .inr h

end Ferret.Scorer
