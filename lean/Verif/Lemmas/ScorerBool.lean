import Verif.Lemmas.ScorerCon

/-! The boolean scorer keeps the contract. -/

namespace Ferret.Scorer

variable {σ ρ ε S α : Type} {P : Prop}

/-- Contract relation of the scorer that matches nothing. -/
def nonR (_ : Unit) (v : View S) (lo : Int) (_b : Bool) : Prop := lo = -1 ∧ ∀ d, v.docs d = false

theorem good_non {A : Arith S} : Good P (nonMatchOps A) (nonR (S := S)) where
  lo := by rintro s v lo b ⟨h, _⟩; exact ⟨by omega, fun h0 => by omega⟩
  nonneg := by rintro s v lo b x ⟨_, h⟩ hx; rw [h x] at hx; cases hx
  next := by
    rintro s v lo b ⟨_, h⟩
    exact ⟨_, rfl, .inr ⟨rfl, fun x hx => by rw [h x] at hx; cases hx⟩⟩
  skip := by
    rintro s v lo b n ⟨_, h⟩ _ _
    exact ⟨_, rfl, .inr ⟨rfl, fun x hx => by rw [h x] at hx; cases hx⟩⟩
  doc := by rintro s v lo b ⟨h, _⟩ h0; omega
  score := by rintro s v lo ⟨h, _⟩ h0; omega

def reqR (P : Prop) (A : Arith S) (o : Ops σ S) (R : σ → View S → Int → Bool → Prop) : Req σ S → View S → Int → Bool → Prop :=
  sumR (singleR R) (sumR (disR P A o R) (conR A R))
def exclSR (P : Prop) (A : Arith S) (o : Ops σ S) (R : σ → View S → Int → Bool → Prop) : Excl σ S → View S → Int → Bool → Prop :=
  sumR R (disR P A o R)
def optSR (P : Prop) (A : Arith S) (o : Ops σ S) (R : σ → View S → Int → Bool → Prop) : Opt σ S → View S → Int → Bool → Prop :=
  sumR (singleR R) (disR P A o R)
def reqXR (P : Prop) (A : Arith S) (o : Ops σ S) (R : σ → View S → Int → Bool → Prop) : ReqX σ S → View S → Int → Bool → Prop :=
  sumR (reqR P A o R) (reqExclR (reqR P A o R) (exclSR P A o R))
def cssR (P : Prop) (A : Arith S) (o : Ops σ S) (R : σ → View S → Int → Bool → Prop) : Css σ S → View S → Int → Bool → Prop :=
  sumR nonR (sumR (reqXR P A o R) (reqOptR A (reqXR P A o R) (optSR P A o R)))

theorem good_css {A : Arith S} (hA : P → Lawful A) {o : Ops σ S} {R} (g : Good P o R) : Good P (cssOps A o) (cssR P A o R) := by
  have g1 := good_single g
  have g2 := good_dis hA g
  have g3 := good_con hA g
  have gr : Good P (reqOps A o) (reqR P A o R) := good_sum g1 (good_sum g2 g3)
  have ge : Good P (exclOps A o) (exclSR P A o R) := good_sum g g2
  have go : Good P (optOps A o) (optSR P A o R) := good_sum g1 g2
  have gx : Good P (reqXOps A o) (reqXR P A o R) := good_sum gr (good_reqExcl gr ge)
  exact good_sum good_non (good_sum gx (good_reqOpt gx go))

def bscR (P : Prop) (A : Arith S) (o : Ops σ S) (R : σ → View S → Int → Bool → Prop) (b : Bsc σ S) (v : View S) (lo : Int) (f : Bool) : Prop :=
  ∃ cv, cssR P A o R (bscCss A b) cv lo f ∧ (∀ d, v.docs d = true ↔ cv.docs d = true) ∧
    (∀ d, v.docs d = true → P → v.sc d = A.mul (cv.sc d) (A.coord (cv.cnt d) b.maxCoord)) ∧
    (∀ d, v.docs d = true → v.cnt d = 0) ∧ (v.skips = true → cv.skips = true) ∧
    (∀ d, v.docs d = true → cv.cnt d ≤ b.maxCoord) ∧ (0 ≤ lo → b.css.isSome = true ∧ b.doc = lo)

theorem good_bsc {A : Arith S} (hA : P → Lawful A) {o : Ops σ S} {R} (g : Good P o R) : Good P (bscOps A o) (bscR P A o R) where
  lo := by
    rintro b v lo f ⟨cv, h, hd, _⟩
    have gc := good_css hA g
    exact ⟨(gc.lo h).1, fun h0 => (hd lo).mpr ((gc.lo h).2 h0)⟩
  nonneg := by
    rintro b v lo f x ⟨cv, h, hd, _⟩ hx
    exact (good_css hA g).nonneg h ((hd x).mp hx)
  next := by
    rintro b v lo f ⟨cv, h, hd, hs, hc, hk, hm, hdoc⟩
    have gc := good_css hA g
    obtain ⟨r, h1, h2⟩ := gc.next h
    refine ⟨_, by simp only [bscOps, h1, Res.ok_bind]; rfl, ?_⟩
    rcases h2 with ⟨e, d, h3, h4, h5⟩ | ⟨e, h3⟩
    · refine .inl ⟨e, d, h3.of_iff hd, ?_, by simp only [e, if_true]; exact h5⟩
      rw [if_pos e]
      exact ⟨cv, h4, hd, hs, hc, hk, hm, fun h0 => ⟨rfl, gc.doc h4 h0⟩⟩
    · exact .inr ⟨e, fun x hx => h3 x ((hd x).mp hx)⟩
  skip := by
    rintro b v lo f n ⟨cv, h, hd, hs, hc, hk, hm, hdoc⟩ hsk hn
    have gc := good_css hA g
    obtain ⟨r, h1, h2⟩ := gc.skip h (hk hsk) hn
    refine ⟨_, by simp only [bscOps, h1, Res.ok_bind]; rfl, ?_⟩
    rcases h2 with ⟨e, d, h3, h4, h5⟩ | ⟨e, h3⟩
    · refine .inl ⟨e, d, h3.of_iff hd, ?_, by simp only [e, if_true]; exact h5⟩
      rw [if_pos e]
      exact ⟨cv, h4, hd, hs, hc, hk, hm, fun h0 => ⟨rfl, gc.doc h4 h0⟩⟩
    · exact .inr ⟨e, fun x hx => h3 x ((hd x).mp hx)⟩
  doc := by
    rintro b v lo f ⟨cv, h, hd, hs, hc, hk, hm, hdoc⟩ h0
    exact (hdoc h0).2
  score := by
    rintro b v lo ⟨cv, h, hd, hs, hc, hk, hm, hdoc⟩ h0
    have gc := good_css hA g
    obtain ⟨x, s', h1, hx, h2, h3⟩ := gc.score h h0
    have hv : v.docs lo = true := (hd lo).mpr ((gc.lo h).2 h0)
    obtain ⟨c, hcss⟩ := Option.isSome_iff_exists.mp (hdoc h0).1
    have hb : bscCss A b = c := by simp [bscCss, hcss]
    rw [hb] at h1 h3
    refine ⟨A.mul x (A.coord (cv.cnt lo) b.maxCoord), { b with css := some s' }, ?_, fun hp => by rw [hs lo hv hp, hx hp],
      ⟨cv, h2, hd, hs, hc, hk, hm, fun h0 => ⟨rfl, (hdoc h0).2⟩⟩, ?_⟩
    · simp only [bscOps, hcss, h1, Res.ok_bind]
      rw [if_pos (hm lo hv), hc lo hv]
    · simp only [bscOps, hb]; exact h3

/-! ### Building the counting sum scorer -/

/-- Fresh sub-scorers `ss` for the views `us`. -/
abbrev FreshL (R : σ → View S → Int → Bool → Prop) (ss : List σ) (us : List (View S)) : Prop :=
  All2 (fun s u => R s u (-1) false) ss us

theorem FreshL.nonneg {o : Ops σ S} {R} (g : Good P o R) {ss us} (h : FreshL R ss us) :
    ∀ u ∈ us, ∀ x, u.docs x = true → 0 ≤ x := by
  induction h with
  | nil => simp
  | cons h _ ih =>
    intro u hu
    rcases List.mem_cons.mp hu with rfl | h1
    · exact fun x hx => g.nonneg h hx
    · exact ih u h1

/-- View of a disjunction. -/
def orView (A : Arith S) (c : Bool) (us : List (View S)) : View S where
  docs d := us.any (fun u => u.docs d)
  sc d := sumSc A us d
  cnt d := if c then cntSc us d else 0
  skips := us.all (·.skips)

theorem orView_is {A : Arith S} {c} {us : List (View S)} (hn : ∀ u ∈ us, ∀ x, u.docs x = true → 0 ≤ x) : IsDis A c us (orView A c us) where
  docs d := by simp [orView]
  sc d _ := rfl
  cnt d _ := rfl
  skips h := by simpa [orView] using h
  nonneg := hn

/-- View of a conjunction. -/
def andView (A : Arith S) (us : List (View S)) : View S where
  docs d := us.all (fun u => u.docs d)
  sc d := total A (us.map (fun u => u.sc d))
  cnt _ := us.length
  skips := false

theorem andView_is {A : Arith S} {us : List (View S)} (hn : ∀ u ∈ us, ∀ x, u.docs x = true → 0 ≤ x)
    (hne : us ≠ []) (hs : ∀ u ∈ us, u.skips = true) : IsCon A us (andView A us) where
  docs d := by simp [andView, InAll]
  sc d _ := rfl
  cnt d _ := rfl
  subskips := hs
  noskip := rfl
  nonempty := hne
  nonneg := hn

/-- View of a single match. -/
def oneView (u : View S) : View S := { u with cnt := fun _ => 1 }

theorem singleR_new {R : σ → View S → Int → Bool → Prop} {s : σ} {u} (h : R s u (-1) false) : singleR R ⟨s, 0⟩ (oneView u) (-1) false :=
  ⟨u, h, fun _ => Iff.rfl, fun _ _ => rfl, fun _ _ => rfl, fun h => h, fun h => by omega⟩

theorem sumSc_one {A : Arith S} (hA : Lawful A) {u : View S} {d} (h : u.docs d = true) : sumSc A [u] d = u.sc d := by
  simp [sumSc, h, total]; rw [hA.comm, hA.zero]

theorem filter_all_eq {us : List (View S)} {d} (h : ∀ u ∈ us, u.docs d = true) : us.filter (fun u => u.docs d) = us :=
  List.filter_eq_self.mpr h

/-- What the counting sum scorer over required `rs`, optional `os` and prohibited `ps` matches. -/
def BoolDocs (rs os ps : List (View S)) (d : Int) : Prop :=
  (∀ u ∈ rs, u.docs d = true) ∧ (rs = [] → ∃ u ∈ os, u.docs d = true) ∧ ∀ u ∈ ps, u.docs d = false

/-- A required scorer for the views `rs` (all of them) resp. `os` (some of them). -/
structure ReqSpec (P : Prop) (A : Arith S) (rs : List (View S)) (D : Int → Prop) (w : View S) : Prop where
  docs : ∀ d, w.docs d = true ↔ D d
  sc : ∀ d, D d → P → w.sc d = sumSc A rs d
  cnt : ∀ d, D d → w.cnt d = cntSc rs d

theorem req_all {A : Arith S} (hA : P → Lawful A) {o : Ops σ S} {R} (g : Good P o R) {r : σ} {rs : List σ} {u : View S} {us : List (View S)}
    (h : FreshL R (r :: rs) (u :: us)) (hs : us ≠ [] → ∀ w ∈ u :: us, w.skips = true) :
    ∃ w, reqR P A o R (match rs with | [] => .inl ⟨r, 0⟩ | _ => .inr (.inr (Con.new (r :: rs)))) w (-1) false ∧
      ReqSpec P A (u :: us) (fun d => ∀ z ∈ u :: us, z.docs d = true) w ∧ (us = [] → u.skips = true → w.skips = true) := by
  cases h with
  | cons h1 h2 =>
  cases h2 with
  | nil =>
    refine ⟨oneView u, singleR_new h1, ⟨fun d => by simp [oneView], fun d hd hp => ?_, fun d hd => ?_⟩, fun _ h => h⟩
    · exact (sumSc_one (hA hp) (hd u (by simp))).symm
    · have := hd u (by simp); simp [oneView, cntSc, this]
  | @cons a b l m h3 h4 =>
    refine ⟨andView A (u :: b :: m), conR_new (andView_is (FreshL.nonneg g (.cons h1 (.cons h3 h4))) (by simp) (hs (by simp))) (.cons h1 (.cons h3 h4)),
      ⟨fun d => by simp [andView], fun d hd hp => ?_, fun d hd => ?_⟩, fun h => by cases h⟩
    · show total A _ = sumSc A _ d
      unfold sumSc
      rw [filter_all_eq hd]
    · show _ = cntSc _ d
      unfold cntSc
      rw [filter_all_eq hd]; rfl

theorem req_any {A : Arith S} (hA : P → Lawful A) {o : Ops σ S} {R} (g : Good P o R) {r : σ} {rs : List σ} {u : View S} {us : List (View S)}
    (h : FreshL R (r :: rs) (u :: us)) :
    ∃ w, reqR P A o R (match rs with | [] => .inl ⟨r, 0⟩ | _ => .inr (.inl (Dis.new A (r :: rs) 1 true))) w (-1) false ∧
      ReqSpec P A (u :: us) (fun d => ∃ z ∈ u :: us, z.docs d = true) w ∧ ((∀ w ∈ u :: us, w.skips = true) → w.skips = true) := by
  cases h with
  | cons h1 h2 =>
  cases h2 with
  | nil =>
    refine ⟨oneView u, singleR_new h1, ⟨fun d => by simp [oneView], fun d hd hp => ?_, fun d hd => ?_⟩, fun h => h u (by simp)⟩
    · exact (sumSc_one (hA hp) (by simpa using hd)).symm
    · have : u.docs d = true := by simpa using hd
      simp [oneView, cntSc, this]
  | @cons a b l m h3 h4 =>
    refine ⟨orView A true (u :: b :: m), disR_new (orView_is (FreshL.nonneg g (.cons h1 (.cons h3 h4)))) (.cons h1 (.cons h3 h4)),
      ⟨fun d => by simp [orView], fun d hd hp => rfl, fun d hd => rfl⟩, fun h => by simpa [orView] using h⟩

theorem opt_any {A : Arith S} (hA : P → Lawful A) {o : Ops σ S} {R} (g : Good P o R) {r : σ} {rs : List σ} {u : View S} {us : List (View S)}
    (h : FreshL R (r :: rs) (u :: us)) (hs : ∀ w ∈ u :: us, w.skips = true) :
    ∃ w, optSR P A o R (match rs with | [] => .inl ⟨r, 0⟩ | _ => .inr (Dis.new A (r :: rs) 1 true)) w (-1) false ∧
      ReqSpec P A (u :: us) (fun d => ∃ z ∈ u :: us, z.docs d = true) w ∧ w.skips = true := by
  cases h with
  | cons h1 h2 =>
  cases h2 with
  | nil =>
    refine ⟨oneView u, singleR_new h1, ⟨fun d => by simp [oneView], fun d hd hp => ?_, fun d hd => ?_⟩, hs u (by simp)⟩
    · exact (sumSc_one (hA hp) (by simpa using hd)).symm
    · have : u.docs d = true := by simpa using hd
      simp [oneView, cntSc, this]
  | @cons a b l m h3 h4 =>
    refine ⟨orView A true (u :: b :: m), disR_new (orView_is (FreshL.nonneg g (.cons h1 (.cons h3 h4)))) (.cons h1 (.cons h3 h4)),
      ⟨fun d => by simp [orView], fun d hd hp => rfl, fun d hd => rfl⟩, by simpa [orView] using hs⟩

/-- View with the documents of `pv` removed. -/
def minusView (w : View S) (pv : List (View S)) : View S := { w with docs := fun d => w.docs d && !pv.any (fun u => u.docs d) }

theorem mkReqX_spec {A : Arith S} {o : Ops σ S} {R} (g : Good P o R) {ps : List σ} {pv : List (View S)}
    (hp : FreshL R ps pv) (hs : ∀ u ∈ pv, u.skips = true) {req : Req σ S} {w : View S} (hr : reqR P A o R req w (-1) false) :
    reqXR P A o R (mkReqX A ps req) (minusView w pv) (-1) false ∨
    (pv = [] ∧ reqXR P A o R (mkReqX A ps req) w (-1) false) := by
  cases hp with
  | nil => exact .inr ⟨rfl, hr⟩
  | cons h1 h2 =>
  cases h2 with
  | @nil =>
    rename_i p u
    refine .inl ⟨w, u, req, rfl, hr, hs _ (by simp), .inl ⟨rfl, rfl, .inl p, rfl, h1⟩, fun d => by simp [minusView], fun _ _ => rfl, fun _ _ => rfl, fun h => h⟩
  | @cons a b l m h3 h4 =>
    rename_i p u
    refine .inl ⟨w, orView A false (u :: b :: m), req, rfl, hr, by simpa [orView] using hs,
      .inl ⟨rfl, rfl, _, rfl, disR_new (orView_is (FreshL.nonneg g (.cons h1 (.cons h3 h4)))) (.cons h1 (.cons h3 h4))⟩,
      fun d => by simp [minusView, orView], fun _ _ => rfl, fun _ _ => rfl, fun h => h⟩

theorem mkReqX_spec' {A : Arith S} {o : Ops σ S} {R} (g : Good P o R) {ps : List σ} {pv : List (View S)}
    (hp : FreshL R ps pv) (hs : ∀ u ∈ pv, u.skips = true) {req : Req σ S} {w : View S} (hr : reqR P A o R req w (-1) false)
    {rs : List (View S)} {D : Int → Prop} (hw : ReqSpec P A rs D w) :
    ∃ w', reqXR P A o R (mkReqX A ps req) w' (-1) false ∧ ReqSpec P A rs (fun d => D d ∧ ∀ u ∈ pv, u.docs d = false) w' ∧ w'.skips = w.skips := by
  rcases mkReqX_spec g hp hs hr with h | ⟨rfl, h⟩
  · refine ⟨_, h, ⟨fun d => ?_, fun d hd => hw.sc d hd.1, fun d hd => hw.cnt d hd.1⟩, rfl⟩
    simp only [minusView, Bool.and_eq_true, Bool.not_eq_true', List.any_eq_false]
    rw [hw.docs]
    simp
  · exact ⟨_, h, ⟨fun d => by simp [hw.docs], fun d hd => hw.sc d hd.1, fun d hd => hw.cnt d hd.1⟩, rfl⟩

theorem sumSc_append {A : Arith S} (hA : Lawful A) (l m : List (View S)) (d : Int) :
    sumSc A (l ++ m) d = A.add (sumSc A l d) (sumSc A m d) := by
  unfold sumSc
  rw [List.filter_append, List.map_append]
  generalize (l.filter _).map _ = x
  generalize (m.filter _).map _ = y
  induction x with
  | nil => simp [total, hA.zero]
  | cons a x ih => simp only [List.cons_append, total, ih, hA.assoc]

theorem cntSc_append (l m : List (View S)) (d : Int) : cntSc (l ++ m) d = cntSc l d + cntSc m d := by
  simp [cntSc, List.filter_append]

theorem sumSc_none {A : Arith S} {m : List (View S)} {d : Int} (h : ¬ ∃ z ∈ m, z.docs d = true) : sumSc A m d = A.zero := by
  have : m.filter (fun u => u.docs d) = [] := by
    rw [List.filter_eq_nil_iff]; intro u hu hd; exact h ⟨u, hu, hd⟩
  simp [sumSc, this, total]

theorem cntSc_none {m : List (View S)} {d : Int} (h : ¬ ∃ z ∈ m, z.docs d = true) : cntSc m d = 0 := by
  have : m.filter (fun u => u.docs d) = [] := by
    rw [List.filter_eq_nil_iff]; intro u hu hd; exact h ⟨u, hu, hd⟩
  simp [cntSc, this]

theorem create2_spec {A : Arith S} (hA : P → Lawful A) {o : Ops σ S} {R} (g : Good P o R) {ps os : List σ} {pv ov : List (View S)}
    (hp : FreshL R ps pv) (hs : ∀ u ∈ pv, u.skips = true) (ho : FreshL R os ov) (hos : ∀ u ∈ ov, u.skips = true)
    {req : Req σ S} {w : View S} (hr : reqR P A o R req w (-1) false)
    {rs : List (View S)} {D : Int → Prop} (hw : ReqSpec P A rs D w) :
    ∃ w', cssR P A o R (create2 A ps req os) w' (-1) false ∧
      ReqSpec P A (rs ++ ov) (fun d => D d ∧ ∀ u ∈ pv, u.docs d = false) w' ∧ w'.skips = w.skips := by
  obtain ⟨x, hx1, hx2, hx3⟩ := mkReqX_spec' g hp hs hr hw
  cases ho with
  | nil => exact ⟨x, hx1, by simpa using hx2, hx3⟩
  | @cons a u l m h1 h2 =>
    obtain ⟨y, hy1, hy2, hy3⟩ := opt_any hA g (.cons h1 h2) hos
    let w' : View S := ⟨x.docs, fun d => if y.docs d then A.add (x.sc d) (y.sc d) else x.sc d,
      fun d => x.cnt d + if y.docs d then y.cnt d else 0, x.skips⟩
    have key : ∀ opt, optSR P A o R opt y (-1) false → reqOptR A (reqXR P A o R) (optSR P A o R) ⟨mkReqX A ps req, some opt, true, 0⟩ w' (-1) false :=
      fun opt hopt => ⟨x, y, hx1, .inl ⟨rfl, _, rfl, hopt, rfl⟩, hy3, fun _ => Iff.rfl, fun _ _ => rfl, fun _ _ => rfl, fun h => h, fun h => by omega⟩
    refine ⟨w', ?_, ⟨hx2.docs, fun d hd hpp => ?_, fun d hd => ?_⟩, hx3⟩
    · cases h2 with
      | nil => exact key _ hy1
      | cons _ _ => exact key _ hy1
    · have hl := hA hpp
      rw [sumSc_append hl, ← hx2.sc d hd hpp]
      show (if y.docs d then A.add (x.sc d) (y.sc d) else x.sc d) = _
      by_cases hyd : ∃ z ∈ u :: m, z.docs d = true
      · rw [if_pos ((hy2.docs d).mpr hyd), hy2.sc d hyd hpp]
      · rw [if_neg (fun h => hyd ((hy2.docs d).mp h)), sumSc_none hyd, hl.comm, hl.zero]
    · rw [cntSc_append, ← hx2.cnt d hd]
      show x.cnt d + (if y.docs d then y.cnt d else 0) = _
      by_cases hyd : ∃ z ∈ u :: m, z.docs d = true
      · rw [if_pos ((hy2.docs d).mpr hyd), hy2.cnt d hyd]
      · rw [if_neg (fun h => hyd ((hy2.docs d).mp h)), cntSc_none hyd]

/-- When the moves the boolean scorer makes on its sub-scorers are all within their contracts. -/
structure BoolOK (rv ov pv : List (View S)) : Prop where
  proh : ∀ u ∈ pv, u.skips = true
  req : 2 ≤ rv.length → ∀ u ∈ rv, u.skips = true
  opt : rv ≠ [] → ∀ u ∈ ov, u.skips = true

theorem create_spec {A : Arith S} (hA : P → Lawful A) {o : Ops σ S} {R} (g : Good P o R) {b : Bsc σ S} {rv ov pv : List (View S)}
    (hr : FreshL R b.required rv) (ho : FreshL R b.optional ov) (hp : FreshL R b.prohibited pv) (hok : BoolOK rv ov pv) :
    ∃ w, cssR P A o R (create A b) w (-1) false ∧ ReqSpec P A (rv ++ ov) (BoolDocs rv ov pv) w ∧
      (rv.length ≤ 1 → (∀ u ∈ rv ++ ov, u.skips = true) → w.skips = true) := by
  obtain ⟨req, opt, proh, css, mc, dc⟩ := b
  simp only at hr ho hp
  unfold create
  simp only []
  cases hr with
  | nil =>
    cases ho with
    | nil =>
      refine ⟨⟨fun _ => false, fun _ => A.zero, fun _ => 0, true⟩, ⟨rfl, fun _ => rfl⟩, ⟨fun d => ?_, fun d hd => ?_, fun d hd => ?_⟩, fun _ _ => rfl⟩
      · simp [BoolDocs]
      · exact absurd (hd.2.1 rfl) (by simp)
      · exact absurd (hd.2.1 rfl) (by simp)
    | @cons s u ss us h1 h2 =>
      obtain ⟨w, w1, w2, w3⟩ := req_any hA g (.cons h1 h2)
      obtain ⟨w', v1, v2, v3⟩ := create2_spec hA g hp hok.proh .nil (by simp) w1 w2
      refine ⟨w', ?_, ?_, fun _ h => ?_⟩
      · cases h2 with
        | nil => exact v1
        | cons _ _ => exact v1
      · have he : ∀ d, BoolDocs [] (u :: us) pv d ↔ ((∃ z ∈ u :: us, z.docs d = true) ∧ ∀ u ∈ pv, u.docs d = false) := by
          intro d; simp [BoolDocs]
        refine ⟨fun d => by rw [he]; exact v2.docs d, fun d hd hpp => ?_, fun d hd => ?_⟩
        · simpa using v2.sc d ((he d).mp hd) hpp
        · simpa using v2.cnt d ((he d).mp hd)
      · rw [v3]; exact w3 (by simpa using h)
  | @cons s u ss us h1 h2 =>
    have hreq : us ≠ [] → ∀ w ∈ u :: us, w.skips = true := by
      intro hne
      apply hok.req
      cases us with
      | nil => exact absurd rfl hne
      | cons _ _ => simp
    obtain ⟨w, w1, w2, w3⟩ := req_all hA g (.cons h1 h2) hreq
    obtain ⟨w', v1, v2, v3⟩ := create2_spec hA g hp hok.proh ho (hok.opt (by simp)) w1 w2
    refine ⟨w', ?_, ?_, fun hl h => ?_⟩
    · cases h2 with
      | nil => exact v1
      | cons _ _ => exact v1
    · have he : ∀ d, BoolDocs (u :: us) ov pv d ↔ ((∀ z ∈ u :: us, z.docs d = true) ∧ ∀ u ∈ pv, u.docs d = false) := by
        intro d; simp [BoolDocs]
      exact ⟨fun d => by rw [he]; exact v2.docs d, fun d hd => v2.sc d ((he d).mp hd), fun d hd => v2.cnt d ((he d).mp hd)⟩
    · rw [v3]
      have : us = [] := by
        cases us with
        | nil => rfl
        | cons _ _ => simp at hl
      exact w3 this (h u (by simp))

/-- The view of a boolean scorer. -/
def boolView (A : Arith S) (rv ov pv : List (View S)) : View S where
  docs d := rv.all (fun u => u.docs d) && (!rv.isEmpty || ov.any (fun u => u.docs d)) && !pv.any (fun u => u.docs d)
  sc d := A.mul (sumSc A (rv ++ ov) d) (A.coord (cntSc (rv ++ ov) d) (rv.length + ov.length))
  cnt _ := 0
  skips := decide (rv.length ≤ 1) && (rv ++ ov).all (·.skips)

theorem boolView_docs {A : Arith S} {rv ov pv : List (View S)} {d} : (boolView A rv ov pv).docs d = true ↔ BoolDocs rv ov pv d := by
  unfold boolView BoolDocs
  simp only [Bool.and_eq_true, Bool.or_eq_true, Bool.not_eq_true', List.all_eq_true, List.any_eq_true, List.any_eq_false,
    List.isEmpty_eq_false_iff]
  constructor
  · rintro ⟨⟨h1, h2⟩, h3⟩
    exact ⟨h1, fun h => h2.resolve_left (by simp [h]), fun u hu => by simpa using h3 u hu⟩
  · rintro ⟨h1, h2, h3⟩
    refine ⟨⟨h1, ?_⟩, fun u hu => by simp [h3 u hu]⟩
    by_cases h : rv = []
    · exact .inr (h2 h)
    · exact .inl h

/-- A fresh boolean scorer over fresh sub-scorers. -/
theorem bscR_new {A : Arith S} (hA : P → Lawful A) {o : Ops σ S} {R} (g : Good P o R) {b : Bsc σ S} {rv ov pv : List (View S)}
    (hr : FreshL R b.required rv) (ho : FreshL R b.optional ov) (hp : FreshL R b.prohibited pv) (hok : BoolOK rv ov pv)
    (hcss : b.css = none) (hmc : b.maxCoord = b.required.length + b.optional.length) :
    bscR P A o R b (boolView A rv ov pv) (-1) false := by
  obtain ⟨w, w1, w2, w3⟩ := create_spec hA g hr ho hp hok
  have hlen : b.maxCoord = rv.length + ov.length := by rw [hmc, hr.length, ho.length]
  refine ⟨w, by simpa [bscCss, hcss] using w1, fun d => by rw [boolView_docs, w2.docs], fun d hd hpp => ?_, fun _ _ => rfl, ?_, fun d hd => ?_, fun h => by omega⟩
  · have := boolView_docs.mp hd
    rw [w2.sc d this hpp, w2.cnt d this, hlen]; rfl
  · intro h
    simp only [boolView, Bool.and_eq_true, decide_eq_true_eq, List.all_eq_true] at h
    exact w3 h.1 h.2
  · rw [w2.cnt d (boolView_docs.mp hd), hlen, cntSc_append]
    have h1 : cntSc rv d ≤ rv.length := List.length_filter_le _ _
    have h2 : cntSc ov d ≤ ov.length := List.length_filter_le _ _
    omega

end Ferret.Scorer
