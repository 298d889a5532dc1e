import Verif.Model.FilterQuery
import Verif.Lemmas.BoolQuery
import Verif.Props.C45

/-! Lemmas about filtered scorers and searches with filters. -/

namespace Ferret.Scorer
open Ferret Ferret.BitVector Ferret.Spec

variable {σ S L : Type} {P : Prop}

/-- What a filtered scorer enumerates. -/
def View.within (u : View S) (B : Int → Bool) : View S := { u with docs := fun d => u.docs d && B d }

/-- The bits are `B`. -/
def Holds (bv : BV) (B : Int → Bool) : Prop := ∀ d : Int, 0 ≤ d → get bv d = .ok (B d)

def fqR (R : σ → View S → Int → Bool → Prop) (s : FQ σ) (v : View S) (lo : Int) (b : Bool) : Prop :=
  ∃ u B, Holds s.bv B ∧ R s.sub u lo b ∧ v = u.within B ∧ (0 ≤ lo → B lo = true ∧ s.doc = lo)

theorem fqLoop_spec {o : Ops σ S} {R} (g : Good P o R) {u : View S} {B : Int → Bool} (lo0 : Int) (h0 : -1 ≤ lo0) :
    ∀ (fuel : Nat) (s : FQ σ) (lo : Int) (b : Bool), Holds s.bv B → R s.sub u lo b → lo0 ≤ lo →
      (∀ x, u.docs x = true → B x = true → lo0 < x → lo < x) → o.left s.sub < fuel →
      ∃ r, fqLoop o fuel s = .ok r ∧ Moved (fqOps o) (fqR R) (u.within B) lo0 s r := by
  intro fuel
  induction fuel with
  | zero => intro s lo b _ _ _ _ hf; omega
  | succ n ih =>
    intro s lo b hB h hlo hx hf
    unfold fqLoop
    obtain ⟨r, r1, r2⟩ := g.next h
    rw [r1, Res.ok_bind]
    rcases r2 with ⟨e1, d, e2, e3, e4⟩ | ⟨e1, e2⟩
    · rw [if_pos e1]
      have hd := e2.2.1
      have hdoc := g.doc e3 (by omega)
      rw [hdoc, hB d (by omega), Res.ok_bind]
      cases hb : B d with
      | true =>
        rw [if_pos rfl]
        refine ⟨_, rfl, .inl ⟨rfl, d, ⟨by simp [View.within, e2.1, hb], by omega, ?_⟩, ⟨u, B, hB, e3, rfl, fun _ => ⟨hb, rfl⟩⟩, e4⟩⟩
        intro x hxd hxl
        simp only [View.within, Bool.and_eq_true] at hxd
        exact e2.2.2 x hxd.1 (hx x hxd.1 hxd.2 hxl)
      | false =>
        rw [if_neg (by simp)]
        obtain ⟨r', k1, k2⟩ := ih { s with sub := r.2, doc := d } d false hB e3 (by omega) (by
          intro x h1 h2 h3
          have := e2.2.2 x h1 (hx x h1 h2 h3)
          by_cases hxe : x = d
          · subst hxe; rw [hb] at h2; cases h2
          · omega) (by show o.left r.2 < n; omega)
        refine ⟨r', k1, ?_⟩
        rcases k2 with ⟨a1, a2, a3, a4, a5⟩ | k2
        · refine .inl ⟨a1, a2, a3, a4, ?_⟩
          have : (fqOps o).left r'.2 < o.left r.2 := a5
          show (fqOps o).left r'.2 < o.left s.sub
          omega
        · exact .inr k2
    · rw [if_neg (by simp [e1])]
      refine ⟨_, rfl, .inr ⟨rfl, ?_⟩⟩
      intro x hxd
      simp only [View.within, Bool.and_eq_true] at hxd
      have := e2 x hxd.1
      by_cases hl : lo0 < x
      · have := hx x hxd.1 hxd.2 hl; omega
      · omega

/-- A scorer kept within the bits of a filter is a scorer. -/
theorem good_filtered {o : Ops σ S} {R} (g : Good P o R) : Good P (fqOps o) (fqR R) where
  lo := by
    rintro s v lo b ⟨u, B, hB, h, rfl, hd⟩
    exact ⟨(g.lo h).1, fun h0 => by simp [View.within, (g.lo h).2 h0, (hd h0).1]⟩
  nonneg := by
    rintro s v lo b x ⟨u, B, hB, h, rfl, hd⟩ hx
    simp only [View.within, Bool.and_eq_true] at hx
    exact g.nonneg h hx.1
  next := by
    rintro s v lo b ⟨u, B, hB, h, rfl, hd⟩
    exact fqLoop_spec g lo (g.lo h).1 _ s lo b hB h (by omega) (fun x _ _ h => h) (by omega)
  skip := by
    rintro s v lo b n ⟨u, B, hB, h, rfl, hd⟩ hs hn
    have hl1 := (g.lo h).1
    obtain ⟨r, r1, r2⟩ := g.skip h hs hn
    show ∃ r, fqSkipTo o s n = .ok r ∧ _
    unfold fqSkipTo
    rw [r1, Res.ok_bind]
    rcases r2 with ⟨e1, d, e2, e3, e4⟩ | ⟨e1, e2⟩
    · rw [if_pos e1]
      have hd := e2.2.1
      rw [g.doc e3 (by omega), hB d (by omega), Res.ok_bind]
      cases hb : B d with
      | true =>
        rw [if_pos rfl]
        refine ⟨_, rfl, .inl ⟨rfl, d, ⟨by simp [View.within, e2.1, hb], hd, ?_⟩, ⟨u, B, hB, e3, rfl, fun _ => ⟨hb, rfl⟩⟩, e4⟩⟩
        intro x hxd hxl
        simp only [View.within, Bool.and_eq_true] at hxd
        exact e2.2.2 x hxd.1 hxl
      | false =>
        rw [if_neg (by simp)]
        obtain ⟨r', k1, k2⟩ := fqLoop_spec g (n - 1) (by omega) (o.left r.2 + 1) { s with sub := r.2, doc := d } d false hB e3 (by omega) (by
          intro x h1 h2 h3
          have := e2.2.2 x h1 h3
          by_cases hxe : x = d
          · subst hxe; rw [hb] at h2; cases h2
          · omega) (by show o.left r.2 < _; omega)
        refine ⟨r', k1, ?_⟩
        rcases k2 with ⟨a1, a2, a3, a4, a5⟩ | k2
        · refine .inl ⟨a1, a2, a3, a4, ?_⟩
          have : (fqOps o).left r'.2 < o.left r.2 := a5
          show (fqOps o).left r'.2 < o.left s.sub
          omega
        · exact .inr k2
    · rw [if_neg (by simp [e1])]
      refine ⟨_, rfl, .inr ⟨rfl, ?_⟩⟩
      intro x hxd
      simp only [View.within, Bool.and_eq_true] at hxd
      exact e2 x hxd.1
  doc := by
    rintro s v lo b ⟨u, B, hB, h, rfl, hd⟩ h0
    exact (hd h0).2
  score := by
    rintro s v lo ⟨u, B, hB, h, rfl, hd⟩ h0
    obtain ⟨x, s', h1, hx, h2, h3⟩ := g.score h h0
    refine ⟨x, { s with sub := s' }, ?_, hx, ⟨u, B, hB, h2, rfl, hd⟩, h3⟩
    show fqScore o s = _
    simp only [fqScore, h1, Res.ok_bind]
    rfl

/-! ### Searching with a filter and a post filter -/

/-- What becomes of a document with its score. -/
def kept (A : Arith S) (B : Int → Bool) (post : Option (Int → S → Option S)) (h : Int × S) : Option (Int × S) :=
  if B h.1 then
    match post with
    | none => some h
    | some f => (f h.1 h.2).map fun k => (h.1, A.mul k h.2)
  else none

/-- The bits of a filter, if there is one. -/
def bitsAre (bits : Option BV) (B : Int → Bool) : Prop :=
  match bits with
  | none => ∀ d, B d = true
  | some bv => Holds bv B

theorem drainKept_spec {A : Arith S} {o : Ops σ S} {R} (g : Good P o R) {bits : Option BV} {B : Int → Bool} (hB : bitsAre bits B)
    (post : Option (Int → S → Option S)) : ∀ (fuel : Nat) {s : σ} {v : View S} {lo b}, R s v lo b → o.left s < fuel →
    ∃ hits, drainKept A o bits post fuel s = .ok hits ∧ ∃ full : List Int, full.Pairwise (· < ·) ∧
      (∀ d, d ∈ full ↔ (v.docs d = true ∧ lo < d)) ∧ (post = none → hits.map (·.1) = full.filter B) ∧
      (P → hits = (full.map fun d => (d, v.sc d)).filterMap (kept A B post)) := by
  intro fuel
  induction fuel with
  | zero => intro s v lo b _ h; omega
  | succ n ih =>
    intro s v lo b h hf
    unfold drainKept
    obtain ⟨r, r1, r2⟩ := g.next h
    rw [r1, Res.ok_bind]
    rcases r2 with ⟨e1, d, e2, e3, e4⟩ | ⟨e1, e2⟩
    · rw [if_pos e1]
      have hlo := (g.lo h).1
      have hd := e2.2.1
      have hdoc := g.doc e3 (by omega)
      have hbit : passes bits (o.doc r.2) = .ok (B d) := by
        unfold passes
        cases bits with
        | none => simp only [bitsAre] at hB; rw [hB]
        | some bv => simp only [bitsAre] at hB; simp only [hdoc]; exact hB d (by omega)
      have hfull : ∀ {full : List Int}, full.Pairwise (· < ·) → (∀ x, x ∈ full ↔ (v.docs x = true ∧ d < x)) →
          (d :: full).Pairwise (· < ·) ∧ ∀ x, x ∈ d :: full ↔ (v.docs x = true ∧ lo < x) := by
        intro full f1 f2
        refine ⟨List.pairwise_cons.mpr ⟨fun y hy => ((f2 y).mp hy).2, f1⟩, fun y => ?_⟩
        rw [List.mem_cons, f2]
        constructor
        · rintro (rfl | ⟨h1, h2⟩)
          · exact ⟨e2.1, hd⟩
          · exact ⟨h1, by omega⟩
        · rintro ⟨h1, h2⟩
          have := e2.2.2 y h1 h2
          by_cases hyd : y = d
          · exact .inl hyd
          · exact .inr ⟨h1, by omega⟩
      rw [hbit, Res.ok_bind]
      cases hb : B d with
      | false =>
        rw [if_pos (by simp)]
        obtain ⟨hits, i1, full, i2, i3, i4, i5⟩ := ih e3 (by omega)
        obtain ⟨f1, f2⟩ := hfull i2 i3
        refine ⟨hits, i1, d :: full, f1, f2, fun hp => ?_, fun hp => ?_⟩
        · rw [i4 hp, List.filter_cons_of_neg (by simp [hb])]
        · rw [i5 hp, List.map_cons, List.filterMap_cons_none (by simp [kept, hb])]
      | true =>
        rw [if_neg (by simp)]
        obtain ⟨x, s', k1, k2, k3, k4⟩ := g.score e3 (by omega)
        obtain ⟨hits, i1, full, i2, i3, i4, i5⟩ := ih k3 (by omega)
        obtain ⟨f1, f2⟩ := hfull i2 i3
        rw [k1, Res.ok_bind]
        simp only [hdoc]
        cases post with
        | none =>
          simp only [i1, Res.ok_bind]
          refine ⟨_, rfl, d :: full, f1, f2, fun hp => ?_, fun hp => ?_⟩
          · rw [List.map_cons, i4 rfl, List.filter_cons_of_pos hb]
          · rw [i5 hp, List.map_cons, List.filterMap_cons_some (b := (d, v.sc d)) (by simp [kept, hb]), k2 hp]
        | some f =>
          simp only []
          cases hf' : f d x with
          | none =>
            simp only [i1]
            refine ⟨_, rfl, d :: full, f1, f2, (fun hp => by cases hp), fun hp => ?_⟩
            rw [i5 hp, List.map_cons, List.filterMap_cons_none (by simp [kept, hb, ← k2 hp, hf'])]
          | some k =>
            simp only [i1, Res.ok_bind]
            refine ⟨_, rfl, d :: full, f1, f2, (fun hp => by cases hp), fun hp => ?_⟩
            rw [i5 hp, List.map_cons, List.filterMap_cons_some (b := (d, A.mul k (v.sc d))) (by simp [kept, hb, ← k2 hp, hf']), k2 hp]
    · rw [if_neg (by simp [e1])]
      refine ⟨_, rfl, [], by simp, fun y => ?_, by simp, by simp⟩
      constructor
      · intro h; simp at h
      · rintro ⟨h1, h2⟩; have := e2 y h1; omega

theorem docsOf_spec {o : Ops σ S} {R} (g : Good P o R) : ∀ (fuel : Nat) {s : σ} {v : View S} {lo b}, R s v lo b → o.left s < fuel →
    ∃ ds, docsOf o fuel s = .ok ds ∧ ∀ d : Nat, d ∈ ds ↔ (v.docs d = true ∧ lo < d) := by
  intro fuel
  induction fuel with
  | zero => intro s v lo b _ h; omega
  | succ n ih =>
    intro s v lo b h hf
    unfold docsOf
    obtain ⟨r, r1, r2⟩ := g.next h
    rw [r1, Res.ok_bind]
    rcases r2 with ⟨e1, d, e2, e3, e4⟩ | ⟨e1, e2⟩
    · rw [if_pos e1]
      have hlo := (g.lo h).1
      have hd := e2.2.1
      obtain ⟨ds, i1, i2⟩ := ih e3 (by omega)
      rw [i1, Res.ok_bind, g.doc e3 (by omega)]
      refine ⟨_, rfl, fun y => ?_⟩
      rw [List.mem_cons, i2]
      constructor
      · rintro (rfl | ⟨h1, h2⟩)
        · rw [Int.toNat_of_nonneg (by omega)]; exact ⟨e2.1, hd⟩
        · exact ⟨h1, by omega⟩
      · rintro ⟨h1, h2⟩
        have := e2.2.2 y h1 h2
        by_cases hyd : (y : Int) = d
        · exact .inl (by omega)
        · exact .inr ⟨h1, by omega⟩
    · rw [if_neg (by simp [e1])]
      refine ⟨_, rfl, fun y => ?_⟩
      constructor
      · intro h; simp at h
      · rintro ⟨h1, h2⟩; have := e2 y h1; omega

theorem setAll_holds (ds : List Nat) (n : Nat) : ∃ bv, ConstScore.setAll (newCapa n) ds = .ok bv ∧ WF bv ∧ bv.ext = false ∧
    ∀ d : Nat, get bv d = .ok (decide (d ∈ ds)) := by
  obtain ⟨bv, e, w, x, _, _, _, hb⟩ := Ferret.Props.setAll_spec ds (newCapa n) (wf_newCapa _) rfl
  refine ⟨bv, e, w, x, fun d => ?_⟩
  rw [get_ok bv d w, x, hb]
  have : bitAt (newCapa n).bits false d = false := by
    simp only [newCapa]
    exact bitAt_replicate_zero _ _
  rw [this, Bool.or_false]

/-! ### Queries -/

theorem matches_only {D : L → Int → Bool} {live : Int → Bool} {d : Int} {Q : Prop} (hD : ∀ l, D l d = true → Q) (hl : live d = true → Q) :
    ∀ q : BQuery L, q.matches' D live d = true → Q := by
  intro q
  induction q using bq_ind with
  | hl l => intro h; rw [BQuery.matches'] at h; exact hD l h
  | ha => intro h; rw [BQuery.matches'] at h; exact hl h
  | hb cs ih =>
    intro h
    rw [BQuery.matches_bool] at h
    rcases h with ⟨h1, _, ⟨q, hq⟩ | ⟨q, hq, hm⟩ | ⟨_, _, h⟩⟩
    · exact ih _ hq (h1 q hq)
    · exact ih _ hq hm
    · exact hl h

theorem matches_same {D D' : L → Int → Bool} {live live' : Int → Bool} {d : Int} (hD : ∀ l, D l d = D' l d) (hl : live d = live' d) :
    ∀ q : BQuery L, q.matches' D live d = q.matches' D' live' d := by
  intro q
  induction q using bq_ind with
  | hl l => rw [BQuery.matches', BQuery.matches']; exact hD l
  | ha => rw [BQuery.matches', BQuery.matches']; exact hl
  | hb cs ih =>
    rw [Bool.eq_iff_iff, BQuery.matches_bool, BQuery.matches_bool, hl]
    have e : ∀ k q, (k, q) ∈ cs → q.matches' D live d = q.matches' D' live' d := fun k q h => ih (k, q) h
    constructor
    · rintro ⟨h1, h2, h3⟩
      refine ⟨fun q h => by rw [← e _ q h]; exact h1 q h, fun q h => by rw [← e _ q h]; exact h2 q h, ?_⟩
      rcases h3 with h3 | ⟨q, h, hm⟩ | h3
      · exact .inl h3
      · exact .inr (.inl ⟨q, h, by rw [← e _ q h]; exact hm⟩)
      · exact .inr (.inr h3)
    · rintro ⟨h1, h2, h3⟩
      refine ⟨fun q h => by rw [e _ q h]; exact h1 q h, fun q h => by rw [e _ q h]; exact h2 q h, ?_⟩
      rcases h3 with h3 | ⟨q, h, hm⟩ | h3
      · exact .inl h3
      · exact .inr (.inl ⟨q, h, by rw [e _ q h]; exact hm⟩)
      · exact .inr (.inr h3)

/-- The documents of a search, in order. -/
theorem searchKept_spec {A : Arith S} (hA : P → Lawful A) {o : Ops σ S} {R} (g : Good P o R) {e : Env σ S L} {lv : L → View S}
    {ok : L → Bool} (hle : LeafOKW ok R e lv) (q : BQuery L) (hq : q.shallowW ok = true) {bits : Option BV} {B : Int → Bool}
    (hB : bitsAre bits B) (post : Option (Int → S → Option S)) :
    ∃ all hits, searchEach A o e q = .ok all ∧ searchKept A o e bits post q = .ok hits ∧
      (post = none → hits.map (·.1) = (all.map (·.1)).filter B) ∧ (P → hits = all.filterMap (kept A B post)) := by
  unfold searchEach searchKept
  simp only []
  have hs := mkScorer_spec (P := P) hA g hle (depth (rewrite q)) (rewrite q) (Nat.le_refl _) (rewrite_shallow q hq)
  cases hm : mkScorer e (depth (rewrite q)) (rewrite q) with
  | none => exact ⟨[], [], rfl, rfl, fun _ => rfl, fun _ => rfl⟩
  | some s =>
    rw [hm] at hs
    have gl := good_lvl hA (good_leaf g) (depth (rewrite q))
    obtain ⟨all, a1, a2, a3, a4⟩ := drain_spec gl _ hs.2 (Nat.lt_succ_self _)
    obtain ⟨hits, h1, full, h2, h3, h4, h5⟩ := drainKept_spec (A := A) gl hB post _ hs.2 (Nat.lt_succ_self _)
    have hfull : full = all.map (·.1) := sorted_unique h2 a2 (fun d => by rw [h3, a3])
    refine ⟨all, hits, a1, h1, fun hp => by rw [h4 hp, hfull], fun hp => ?_⟩
    rw [h5 hp, hfull]
    congr 1
    rw [List.map_map]
    conv => rhs; rw [← List.map_id all]
    refine List.map_congr_left fun x hx => ?_
    simp only [Function.comp, id]
    rw [← a4 hp x hx]

/-- The same for a filtered query. -/
theorem searchFiltered_spec {A : Arith S} (hA : P → Lawful A) {o : Ops σ S} {R} (g : Good P o R) {e : Env σ S L} {lv : L → View S}
    {ok : L → Bool} (hle : LeafOKW ok R e lv) (q : BQuery L) (hq : q.shallowW ok = true) (hn : ∀ l, (e.mkLeaf l).isSome = true)
    {bv : BV} {B : Int → Bool} (hB : Holds bv B) :
    ∃ all hits, searchEach A o e q = .ok all ∧ searchFiltered A o e bv q = .ok hits ∧
      hits.map (·.1) = (all.map (·.1)).filter B ∧ (P → hits = all.filter (fun h => B h.1)) := by
  unfold searchEach searchFiltered
  simp only []
  have hs := mkScorer_spec (P := P) hA g hle (depth (rewrite q)) (rewrite q) (Nat.le_refl _) (rewrite_shallow q hq)
  cases hm : mkScorer e (depth (rewrite q)) (rewrite q) with
  | none =>
    rw [hm] at hs
    simp only [] at hs
    rw [nullQ_false hn] at hs
    cases hs
  | some s =>
    rw [hm] at hs
    have gl := good_lvl hA (good_leaf g) (depth (rewrite q))
    obtain ⟨all, a1, a2, a3, a4⟩ := drain_spec gl _ hs.2 (Nat.lt_succ_self _)
    have gf := good_filtered gl
    have h0 : fqR _ (⟨s, bv, -1⟩ : FQ _) _ (-1) false := ⟨_, B, hB, hs.2, rfl, fun h => by omega⟩
    obtain ⟨hits, h1, h2, h3, h4⟩ := drain_spec gf _ h0 (Nat.lt_succ_self _)
    have hf : hits.map (·.1) = (all.map (·.1)).filter B := by
      refine sorted_unique h2 (a2.filter _) fun d => ?_
      rw [h3, List.mem_filter, a3]
      simp only [View.within, Bool.and_eq_true]
      constructor <;> rintro ⟨⟨x, y⟩, z⟩ <;> exact ⟨⟨x, z⟩, y⟩
    refine ⟨all, hits, a1, h1, hf, fun hp => ?_⟩
    have e1 : hits = (hits.map (·.1)).map (fun d => (d, (view A e lv (rewrite q)).sc d)) := by
      rw [List.map_map]
      conv => lhs; rw [← List.map_id hits]
      refine List.map_congr_left fun x hx => ?_
      simp only [Function.comp, id]
      exact Prod.ext rfl (h4 hp x hx)
    have e2 : all = (all.map (·.1)).map (fun d => (d, (view A e lv (rewrite q)).sc d)) := by
      rw [List.map_map]
      conv => lhs; rw [← List.map_id all]
      refine List.map_congr_left fun x hx => ?_
      simp only [Function.comp, id]
      exact Prod.ext rfl (a4 hp x hx)
    rw [e1, hf]
    conv => rhs; rw [e2]
    rw [List.filter_map (f := fun d => (d, (view A e lv (rewrite q)).sc d))]
    rfl

/-- The bits of a query filter. -/
theorem queryBits_spec {A : Arith S} {o : Ops σ S} {R} (g : Good False o R) {e : Env σ S L} {lv : L → View S}
    {ok : L → Bool} (hle : LeafOKW ok R e lv) (q : BQuery L) (hq : q.shallowW ok = true) :
    ∃ bv, queryBits A o e q = .ok bv ∧ WF bv ∧ bv.ext = false ∧ Holds bv (fun d => q.matches' (fun l => (lv l).docs) e.live d) := by
  unfold queryBits
  simp only []
  have hs := mkScorer_spec (P := False) (A := A) (fun h => h.elim) g hle (depth (rewrite q)) (rewrite q) (Nat.le_refl _) (rewrite_shallow q hq)
  cases hm : mkScorer e (depth (rewrite q)) (rewrite q) with
  | none =>
    rw [hm] at hs
    obtain ⟨bv, b1, b2, b3, b4⟩ := setAll_holds [] e.maxDoc
    simp only [ConstScore.setAll] at b1
    cases b1
    refine ⟨_, rfl, b2, b3, fun d hd => ?_⟩
    have := null_matches hle d (rewrite q) hs
    rw [rewrite_matches] at this
    simp only [this]
    obtain ⟨n, rfl⟩ := Int.eq_ofNat_of_zero_le hd
    have := b4 n
    simpa using this
  | some s =>
    rw [hm] at hs
    obtain ⟨ds, d1, d2⟩ := docsOf_spec (good_lvl (A := A) (fun h => h.elim) (good_leaf g) (depth (rewrite q))) _ hs.2 (Nat.lt_succ_self _)
    obtain ⟨bv, b1, b2, b3, b4⟩ := setAll_holds ds e.maxDoc
    refine ⟨bv, by simp only [d1, Res.ok_bind, b1], b2, b3, fun d hd => ?_⟩
    obtain ⟨n, rfl⟩ := Int.eq_ofNat_of_zero_le hd
    have := b4 n
    rw [this]
    congr 1
    rw [Bool.eq_iff_iff, decide_eq_true_eq, d2, view_docs hle n _ (rewrite_proper q) hs.1, rewrite_matches]
    constructor
    · exact fun h => h.1
    · exact fun h => ⟨h, by omega⟩

end Ferret.Scorer
