import Verif.Lemmas.SpanTree
import Verif.Lemmas.BoolQuery
import Verif.Model.SpanScorer

/-! The scorer of span queries, moved with `next`, keeps the scorer contract. -/

namespace Ferret.Span

open Ferret.Scorer (Arith View Moved NextAfter)
open Ferret.Spec (SpLe Proper lengthsIn)

variable {σ S : Type} {P : Prop}

theorem spanTake_spec {o : Ops σ} {R D} (g : Good o R D) : ∀ (fuel : Nat) (L : List Sp) (s : σ) (k : Caps) (x : Sp) (f : List Int),
    R s k (some x) L → Ord (x :: L) → L.length < fuel →
    ∃ r, spanTake o x.doc fuel s f = .ok r ∧ r.2.1 = f ++ lengthsIn x.doc (x :: L) ∧
      Stepped R D k (r.1, r.2.2) (L.filter fun y => decide (x.doc < y.doc))
  | 0, _, _, _, _, _, _, _, h => by omega
  | fuel + 1, L, s, k, x, f, hR, ho, hf => by
    obtain ⟨r, h1, h2⟩ := g.next hR (by simpa using ho)
    unfold spanTake
    rw [g.cur hR, Res.ok_bind, h1, Res.ok_bind]
    cases L with
    | nil =>
      rw [h2.1]
      exact ⟨_, rfl, by simp [lengthsIn], rfl, h2.2⟩
    | cons y L =>
      rw [h2.1, if_pos rfl, g.cur h2.2, Res.ok_bind]
      have hxy := (List.pairwise_cons.1 ho.1).1
      have hle := hxy y (List.mem_cons_self ..)
      have hoy : Ord (y :: L) := ho.sub (List.sublist_cons_self _ _)
      by_cases hd : x.doc = y.doc
      · rw [if_pos hd]
        obtain ⟨r', r1, r2, r3⟩ := spanTake_spec g fuel L r.2 k y (f ++ [x.stop - x.start]) h2.2 hoy (by simp only [List.length_cons] at hf; omega)
        rw [hd, r1]
        refine ⟨r', rfl, ?_, ?_⟩
        · rw [r2]; simp [lengthsIn, hd, List.filter_cons]
        · rw [List.filter_cons_of_neg (by simp)]
          exact r3
      · rw [if_neg hd]
        have hlt : x.doc < y.doc := by simp only [SpLe] at hle; omega
        have hall : ∀ z ∈ y :: L, x.doc < z.doc := by
          intro z hz
          rcases List.mem_cons.1 hz with rfl | hz
          · exact hlt
          · have := (List.pairwise_cons.1 hoy.1).1 z hz
            simp only [SpLe] at this; omega
        refine ⟨_, rfl, ?_, ?_⟩
        · have : (y :: L).filter (fun z => decide (z.doc = x.doc)) = [] := List.filter_eq_nil_iff.2 fun z hz => by have := hall z hz; simp; omega
          rw [lengthsIn, List.filter_cons_of_pos (by simp), this]; rfl
        · rw [List.filter_eq_self.2 fun z hz => by simpa using hall z hz]
          exact ⟨rfl, h2.2⟩

/-- What is ahead of the scorer at document `lo`. -/
def Beyond (R : σ → Caps → Option Sp → List Sp → Prop) (k : Caps) (x : SpanSc σ S) : List Sp → Prop
  | [] => x.more = false
  | y :: L => x.more = true ∧ R x.spans k (some y) L

/-- The scorer is at document `lo` of the documents of the spans `F`. -/
def SpanR (A : Arith S) (R : σ → Caps → Option Sp → List Sp → Prop) (x : SpanSc σ S) (v : View S) (lo : Int) (_b : Bool) : Prop :=
  ∃ k F, Ord F ∧ v.docs = (fun d => F.any fun y => decide (y.doc = d)) ∧ (∀ d, v.sc d = A.mul (x.tfw (lengthsIn d F)) (x.norm d)) ∧
    (∀ d, v.cnt d = 0) ∧ v.skips = false ∧
    ((x.firstTime = true ∧ lo = -1 ∧ R x.spans k none F) ∨
     (x.firstTime = false ∧ x.doc = lo ∧ (∃ y ∈ F, y.doc = lo) ∧ x.freq = lengthsIn lo F ∧ Beyond R k x (F.filter fun y => decide (lo < y.doc))))

theorem ahead_eq {o : Ops σ} {R D} (g : Good o R D) {s : σ} {k c L} (h : R s k c L) (ho : Ord (c.toList ++ L)) : ahead o s = L.length := by
  unfold ahead
  rw [collect_spec g _ L s k c h ho (Nat.lt_succ_of_le (g.left h))]

/-- `spansc_next` once `more` is known. -/
theorem spanAll_spec {o : Ops σ} {R D} (g : Good o R D) (A : Arith S) {x : SpanSc σ S} {v : View S} {lo : Int} {k : Caps} {F : List Sp}
    (hF : Ord F) (hd : v.docs = (fun d => F.any fun y => decide (y.doc = d))) (hs : ∀ d, v.sc d = A.mul (x.tfw (lengthsIn d F)) (x.norm d))
    (hc : ∀ d, v.cnt d = 0) (hk : v.skips = false) (hft : x.firstTime = false) (hlo : -1 ≤ lo)
    (hb : Beyond R k x (F.filter fun y => decide (lo < y.doc))) :
    ∃ r, spanAll o x = .ok r ∧
      ((r.1 = true ∧ ∃ d, NextAfter v lo d ∧ SpanR A R r.2 v d false ∧ (spanOps A o).left r.2 < (F.filter fun y => decide (lo < y.doc)).length) ∨
       (r.1 = false ∧ ∀ z, v.docs z = true → z ≤ lo)) := by
  unfold spanAll
  cases hL : F.filter (fun y => decide (lo < y.doc)) with
  | nil =>
    rw [hL] at hb
    rw [show x.more = false from hb]
    refine ⟨_, rfl, .inr ⟨rfl, fun z hz => ?_⟩⟩
    rw [hd] at hz
    obtain ⟨y, hy, e⟩ := List.any_eq_true.1 hz
    have e : y.doc = z := by simpa using e
    have := List.filter_eq_nil_iff.1 hL y hy
    simp only [decide_eq_true_eq] at this
    omega
  | cons y L =>
    rw [hL] at hb
    obtain ⟨b1, b2⟩ := hb
    have hsub : (y :: L).Sublist F := hL ▸ List.filter_sublist
    have hyL : Ord (y :: L) := hF.sub hsub
    have hmem : ∀ z, z ∈ y :: L ↔ z ∈ F ∧ lo < z.doc := fun z => by rw [← hL]; simp
    have hy := (hmem y).1 (List.mem_cons_self ..)
    rw [b1, if_pos rfl, g.cur b2, Res.ok_bind]
    obtain ⟨r, r1, r2, r3⟩ := spanTake_spec g (o.left x.spans + 1) L x.spans k y [] b2 hyL (Nat.lt_succ_of_le (g.left b2))
    rw [r1, Res.ok_bind]
    have hne : r.2.1 ≠ [] := by rw [r2]; simp [lengthsIn]
    have hlens : lengthsIn y.doc (y :: L) = lengthsIn y.doc F := by
      unfold lengthsIn
      rw [← hL, List.filter_filter]
      congr 1
      refine List.filter_congr fun z _ => ?_
      have := hy.2
      by_cases e : z.doc = y.doc
      · simp [e]; omega
      · simp [e]
    have hrest : L.filter (fun z => decide (y.doc < z.doc)) = F.filter fun z => decide (y.doc < z.doc) := by
      have e1 : (y :: L).filter (fun z => decide (y.doc < z.doc)) = F.filter fun z => decide (y.doc < z.doc) := by
        rw [← hL, List.filter_filter]
        refine List.filter_congr fun z _ => ?_
        have := hy.2
        by_cases e : y.doc < z.doc
        · simp [e]; omega
        · simp [e]
      rw [← e1, List.filter_cons_of_neg (by simp)]
    rw [hrest] at r3
    refine ⟨_, rfl, .inl ⟨?_, y.doc, ⟨?_, hy.2, fun z hz hlz => ?_⟩, ⟨k, F, hF, hd, hs, hc, hk, .inr ⟨hft, rfl, ⟨y, hy.1, rfl⟩, ?_, ?_⟩⟩, ?_⟩⟩
    · simp [hne]
    · rw [hd]; exact List.any_eq_true.2 ⟨y, hy.1, by simp⟩
    · rw [hd] at hz
      obtain ⟨w, hw, e⟩ := List.any_eq_true.1 hz
      have e : w.doc = z := by simpa using e
      have hw := (hmem w).2 ⟨hw, by omega⟩
      rcases List.mem_cons.1 hw with rfl | hw
      · omega
      · have := (List.pairwise_cons.1 hyL.1).1 w hw
        simp only [SpLe] at this; omega
    · show r.2.1 = _
      rw [r2, hlens]; rfl
    · unfold Beyond
      generalize hM : F.filter (fun z => decide (y.doc < z.doc)) = M at r3 ⊢
      cases M with
      | nil => exact r3.1
      | cons w M => exact r3
    · simp only [spanOps, hft, Bool.false_eq_true, if_false, List.length_cons]
      have hlen := List.length_filter_le (fun z => decide (y.doc < z.doc)) L
      rw [hrest] at hlen
      generalize hM : F.filter (fun z => decide (y.doc < z.doc)) = M at r3 hlen
      cases M with
      | nil => rw [r3.1]; simp
      | cons w M =>
        rw [r3.1, if_pos rfl, ahead_eq g r3.2 (hF.sub (show (w :: M).Sublist F from hM ▸ List.filter_sublist))]
        simp only [List.length_cons] at hlen; omega

theorem good_span {o : Ops σ} {R D} (g : Good o R D) (A : Arith S) : Scorer.Good P (spanOps A o) (SpanR A R) where
  lo := by
    rintro x v lo b ⟨k, F, hF, hd, _, _, _, ⟨_, rfl, _⟩ | ⟨_, _, ⟨y, hy, rfl⟩, _⟩⟩
    · exact ⟨Int.le_refl _, fun h => by omega⟩
    · have := (hF.2 y hy).1
      refine ⟨by omega, fun _ => ?_⟩
      rw [hd]; exact List.any_eq_true.2 ⟨y, hy, by simp⟩
  nonneg := by
    rintro x v lo b z ⟨k, F, hF, hd, _⟩ hz
    rw [hd] at hz
    obtain ⟨y, hy, e⟩ := List.any_eq_true.1 hz
    have e : y.doc = z := by simpa using e
    rw [← e]; exact (hF.2 y hy).1
  next := by
    rintro x v lo b ⟨k, F, hF, hd, hs, hc, hk, ⟨h1, rfl, h2⟩ | ⟨h1, h2, h3, h4, h5⟩⟩
    · show ∃ r, spanNext o x = .ok r ∧ _
      obtain ⟨r, r1, r2⟩ := g.next h2 (by simpa using hF)
      unfold spanNext spanFirst
      rw [h1, if_pos rfl, r1, Res.ok_bind, Res.ok_bind]
      have e1 : F.filter (fun y => decide (-1 < y.doc)) = F := List.filter_eq_self.2 fun y hy => by have := (hF.2 y hy).1; simp; omega
      obtain ⟨r', q1, q2⟩ := spanAll_spec g A (x := { x with spans := r.2, more := r.1, firstTime := false }) (lo := -1) (k := k) hF hd hs hc hk rfl (by omega) (by
        rw [e1]
        cases F with
        | nil => exact r2.1
        | cons y F => exact r2)
      refine ⟨r', q1, ?_⟩
      rw [e1] at q2
      rcases q2 with ⟨a, d, a1, a2, a3⟩ | a
      · refine .inl ⟨a, d, a1, a2, ?_⟩
        have : (spanOps A o).left x = F.length + 1 := by
          simp only [spanOps, h1, if_true, ahead_eq g h2 (by simpa using hF)]
        omega
      · exact .inr a
    · show ∃ r, spanNext o x = .ok r ∧ _
      unfold spanNext spanFirst
      rw [h1]
      simp only [Bool.false_eq_true, if_false, Res.ok_bind]
      have hlo : -1 ≤ lo := by
        obtain ⟨y, hy, rfl⟩ := h3
        have := (hF.2 y hy).1; omega
      obtain ⟨r', q1, q2⟩ := spanAll_spec g A hF hd hs hc hk h1 hlo h5
      refine ⟨r', q1, ?_⟩
      rcases q2 with ⟨a, d, a1, a2, a3⟩ | a
      · refine .inl ⟨a, d, a1, a2, ?_⟩
        generalize hM : F.filter (fun y => decide (lo < y.doc)) = M at h5 a3
        cases M with
        | nil => simp at a3
        | cons w M =>
          have : (spanOps A o).left x = M.length + 1 := by
            simp only [spanOps, h1, Bool.false_eq_true, if_false, h5.1, if_true, ahead_eq g h5.2 (hF.sub (show (w :: M).Sublist F from hM ▸ List.filter_sublist))]
          simp only [List.length_cons] at a3
          omega
      · exact .inr a
  skip := by
    rintro x v lo b n ⟨k, F, _, _, _, _, hk, _⟩ h
    rw [hk] at h; cases h
  doc := by
    rintro x v lo b ⟨k, F, _, _, _, _, _, ⟨_, rfl, _⟩ | ⟨_, h2, _⟩⟩ h
    · omega
    · exact h2
  score := by
    rintro x v lo ⟨k, F, hF, hd, hs, hc, hk, h⟩ h0
    refine ⟨_, x, by show _ = Res.ok (_, v.cnt lo, x); rw [hc]; rfl, fun _ => ?_, ⟨k, F, hF, hd, hs, hc, hk, h⟩, Nat.le_refl _⟩
    rcases h with ⟨_, h, _⟩ | ⟨_, h2, _, h4, _⟩
    · omega
    · rw [hs, spanScore, h4, h2]

/-- What the scorer of spans `F` enumerates. -/
def spanView (A : Arith S) (tfw : List Int → S) (norm : Int → S) (F : List Sp) : View S :=
  ⟨fun d => F.any fun y => decide (y.doc = d), fun d => A.mul (tfw (lengthsIn d F)) (norm d), fun _ => 0, false⟩

theorem spanR_new {A : Arith S} {R : σ → Caps → Option Sp → List Sp → Prop} {s : σ} {k : Caps} {F : List Sp} (h : R s k none F) (ho : Ord F) (tfw : List Int → S) (norm : Int → S) :
    SpanR A R (SpanSc.new s tfw norm) (spanView A tfw norm F) (-1) false :=
  ⟨k, F, ho, rfl, fun _ => rfl, fun _ => rfl, rfl, .inl ⟨rfl, rfl, h⟩⟩

/-- The loop of `spansc_skip_to` on a document that is the target. -/
theorem spanSkip_spec {o : Ops σ} {R D} (g : Good o R D) : ∀ (fuel : Nat) (L : List Sp) (x : SpanSc σ S) (k : Caps) (y : Sp),
    R x.spans k (some y) L → x.more = true → Ord (y :: L) → L.length + 1 < fuel →
    ∃ x', spanSkip o y.doc fuel x = .ok x' ∧ x'.freq = x.freq ++ lengthsIn y.doc (y :: L) ∧ x'.firstTime = false ∧ x'.doc = x.doc ∧ x'.tfw = x.tfw ∧ x'.norm = x.norm ∧
      Beyond R k x' (L.filter fun z => decide (y.doc < z.doc))
  | 0, _, _, _, _, _, _, _, h => by omega
  | fuel + 1, L, x, k, y, hR, hm, ho, hf => by
    obtain ⟨r, h1, h2⟩ := g.next hR (by simpa using ho)
    unfold spanSkip
    rw [hm, if_pos rfl, g.cur hR, Res.ok_bind, if_pos rfl, h1, Res.ok_bind]
    cases L with
    | nil =>
      obtain ⟨fuel, rfl⟩ : ∃ n, fuel = n + 1 := ⟨fuel - 1, by simp at hf; omega⟩
      unfold spanSkip
      rw [show r.1 = false from h2.1]
      exact ⟨_, rfl, by simp [lengthsIn], rfl, rfl, rfl, rfl, rfl⟩
    | cons z L =>
      have hle := (List.pairwise_cons.1 ho.1).1 z (List.mem_cons_self ..)
      have hoz : Ord (z :: L) := ho.sub (List.sublist_cons_self _ _)
      simp only [List.length_cons] at hf
      by_cases hd : z.doc = y.doc
      · rw [← hd]
        obtain ⟨x', r1, r2, r3, r4, r5, r6, r7⟩ := spanSkip_spec g fuel L
          { x with freq := x.freq ++ [y.stop - y.start], more := r.1, firstTime := false, spans := r.2 } k z h2.2 h2.1 hoz (by omega)
        refine ⟨x', r1, ?_, r3, r4, r5, r6, ?_⟩
        · rw [r2]; simp [lengthsIn, hd, List.filter_cons]
        · rw [List.filter_cons_of_neg (by simp)]; exact r7
      · have hlt : y.doc < z.doc := by simp only [SpLe] at hle; omega
        have hall : ∀ w ∈ z :: L, y.doc < w.doc := by
          intro w hw
          rcases List.mem_cons.1 hw with rfl | hw
          · exact hlt
          · have := (List.pairwise_cons.1 hoz.1).1 w hw
            simp only [SpLe] at this; omega
        obtain ⟨fuel, rfl⟩ : ∃ n, fuel = n + 1 := ⟨fuel - 1, by omega⟩
        unfold spanSkip
        rw [show r.1 = true from h2.1, if_pos rfl, g.cur h2.2, Res.ok_bind, if_neg hd]
        refine ⟨_, rfl, ?_, rfl, rfl, rfl, rfl, ?_⟩
        · have : (z :: L).filter (fun w => decide (w.doc = y.doc)) = [] := List.filter_eq_nil_iff.2 fun w hw => by have := hall w hw; simp; omega
          rw [lengthsIn, List.filter_cons_of_pos (by simp), this]; rfl
        · rw [List.filter_eq_self.2 fun w hw => by simpa using hall w hw]
          exact ⟨rfl, h2.2⟩

/-- Jumping with a fresh scorer to a document that has spans. -/
theorem spanSkipTo_spec {o : Ops σ} {R D} (g : Good o R D) (A : Arith S) {s : σ} {k : Caps} {F : List Sp} (h : R s k none F) (hF : Ord F) (hk : k.skips = true)
    (tfw : List Int → S) (norm : Int → S) {t : Int} (ht : ∃ y ∈ F, y.doc = t) :
    ∃ x, spanSkipTo o (SpanSc.new s tfw norm) t = .ok (true, x) ∧ SpanR A R x (spanView A tfw norm F) t false := by
  obtain ⟨y0, hy0, rfl⟩ := ht
  have h0 := (hF.2 y0 hy0).1
  obtain ⟨r, r1, r2⟩ := g.skip (t := y0.doc) h (by simpa using hF) hk h0
  rw [dropWhile_ord hF] at r2
  unfold spanSkipTo
  rw [show (SpanSc.new s tfw norm).spans = s from rfl, r1, Res.ok_bind]
  cases hL : F.filter (fun x => !docLt y0.doc x) with
  | nil =>
    have := List.filter_eq_nil_iff.1 hL y0 hy0
    simp [docLt] at this
  | cons y L =>
    rw [hL] at r2
    have hmem : ∀ z, z ∈ y :: L ↔ z ∈ F ∧ y0.doc ≤ z.doc := fun z => by rw [← hL]; simp [docLt]
    have hyL : Ord (y :: L) := hF.sub (hL ▸ List.filter_sublist)
    have hy := (hmem y).1 (List.mem_cons_self ..)
    have hyd : y.doc = y0.doc := by
      have := (hmem y0).2 ⟨hy0, Int.le_refl _⟩
      rcases List.mem_cons.1 this with e | e
      · rw [e]
      · have := (List.pairwise_cons.1 hyL.1).1 y0 e
        simp only [SpLe] at this; omega
    rw [r2.1, if_pos rfl, g.cur r2.2, Res.ok_bind]
    obtain ⟨x', q1, q2, q3, q4, q5, q6, q7⟩ := spanSkip_spec g (o.left r.2 + 2) L
      { SpanSc.new s tfw norm with spans := r.2, more := true, freq := [], doc := y.doc } k y r2.2 rfl hyL (by have := g.left r2.2; omega)
    rw [← hyd, q1, Res.ok_bind]
    have hq2 : x'.freq = lengthsIn y.doc F := by
      rw [q2]
      show lengthsIn y.doc (y :: L) = _
      unfold lengthsIn
      rw [← hL, List.filter_filter]
      congr 1
      refine List.filter_congr fun z _ => ?_
      by_cases e : z.doc = y.doc
      · simp [e, docLt, hyd]
      · simp [e]
    have hne : x'.freq ≠ [] := by rw [q2]; simp [lengthsIn]
    refine ⟨x', by simp [hne], k, F, hF, rfl, fun d => ?_, fun _ => rfl, rfl, .inr ⟨q3, q4, ⟨y, hy.1, rfl⟩, hq2, ?_⟩⟩
    · rw [q5, q6]; rfl
    · have e1 : F.filter (fun z => decide (y.doc < z.doc)) = L.filter (fun z => decide (y.doc < z.doc)) := by
        have e2 : (y :: L).filter (fun z => decide (y.doc < z.doc)) = L.filter (fun z => decide (y.doc < z.doc)) := List.filter_cons_of_neg (by simp)
        rw [← e2, ← hL, List.filter_filter]
        refine List.filter_congr fun z _ => ?_
        by_cases e : y.doc < z.doc
        · simp [e, docLt]; omega
        · simp [e]
      rw [e1]; exact q7

end Ferret.Span
