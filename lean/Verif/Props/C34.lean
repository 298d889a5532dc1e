import Verif.Props.C33

/-! C34: a multi-searcher returns the page of the ranking of the union of the sub-searchers'
hits. -/

namespace Ferret.Props
open Ferret.Search Ferret.Spec Ferret.PQ

variable {S : Type}

/-- Move a hit by a document offset. -/
def shiftHit (start : Nat) (h : Hit S) : Hit S := ⟨h.doc + start, h.score⟩

/-- Renumbered accepted hits of all sub-searchers: sub-searcher `i` is shifted by the total
size of its predecessors. `passes` gives the filter of each sub-searcher. -/
def unionHits (adjust : Nat → S → Option S) : Nat → List (SubIn S) → List (Nat → Bool) → List (Hit S)
  | start, s :: ss, p :: ps =>
      (accepted p adjust (s.scorer.getD [])).map (shiftHit start) ++ unionHits adjust (start + s.maxDoc) ss ps
  | _, _, _ => []

/-- Left-biased maximum. -/
def lmax (lt : S → S → Bool) (a b : S) : S := if lt a b then b else a

theorem lmax_assoc {lt : S → S → Bool} (h : StrictWeak lt) (a b c : S) :
    lmax lt (lmax lt a b) c = lmax lt a (lmax lt b c) := by
  unfold lmax
  have k1 := h.negTrans a b c
  have k2 := h.negTrans b a c
  have k3 := h.asymm a b
  have k4 := h.asymm b c
  have k5 := h.negTrans a c b
  have k6 := h.asymm a c
  cases h1 : lt a b <;> cases h2 : lt b c <;> cases h3 : lt a c <;> simp [h1, h2, h3] at k1 k2 k3 k4 k5 k6 ⊢ <;> simp_all

theorem bestScore_lmax {lt : S → S → Bool} (h : StrictWeak lt) (c z : S) (hits : List (Hit S)) :
    bestScore lt (lmax lt c z) hits = lmax lt c (bestScore lt z hits) := by
  unfold bestScore
  induction hits generalizing z with
  | nil => rfl
  | cons x xs ih =>
    simp only [List.foldl_cons]
    have e : (if lt (lmax lt c z) x.score = true then x.score else lmax lt c z) = lmax lt c (lmax lt z x.score) := by
      rw [← lmax_assoc h]; rfl
    rw [e, ih]; rfl

theorem bestScore_ge {lt : S → S → Bool} (h : StrictWeak lt) (z : S) (hits : List (Hit S)) :
    lt (bestScore lt z hits) z = false := by
  have key : ∀ (hs : List (Hit S)) (m : S), lt m z = false → lt (bestScore lt m hs) z = false := by
    intro hs
    induction hs with
    | nil => intro m hm; exact hm
    | cons x xs ih =>
      intro m hm
      show lt (bestScore lt (if lt m x.score then x.score else m) xs) z = false
      apply ih
      by_cases hx : lt m x.score = true
      · rw [if_pos hx]; exact h.negTrans _ _ _ (h.asymm _ _ hx) hm
      · rw [if_neg hx]; exact hm
  exact key hits z (h.irrefl z)

theorem hitLt_shift (lt : S → S → Bool) (start : Nat) (a b : Hit S) :
    hitLt lt (shiftHit start a) (shiftHit start b) = hitLt lt a b := by
  unfold hitLt shiftHit
  simp

/-- Inserting only the best `k` of `A` is as good as inserting all of `A`. -/
theorem Kept.extend {α : Type} {lt : α → α → Bool} (hlt : StrictWeak lt) {k : Nat} {seen T RT A : List α} {q : PQ α}
    (h : Kept lt k (seen ++ T) q) (hA : (T ++ RT).Perm A) (hl : T.length = min k A.length)
    (hTR : ∀ a ∈ T, ∀ b ∈ RT, lt a b = false) : Kept lt k (seen ++ A) q := by
  obtain ⟨rest, hp, hr⟩ := h.rest
  have hlenA := hA.length_eq
  have hlenP := hp.length_eq
  simp only [List.length_append] at hlenA hlenP
  have hlen := h.len
  rw [List.length_append] at hlen
  refine ⟨h.inv, h.capa, ⟨rest ++ RT, ?_, ?_⟩, ?_⟩
  · rw [← List.append_assoc]
    refine (hp.append_right RT).trans ?_
    rw [List.append_assoc]
    exact hA.append_left seen
  · intro a ha b hb
    rcases List.mem_append.mp hb with hb | hb
    · exact hr a ha b hb
    · cases hab : lt a b with
      | false => rfl
      | true =>
        exfalso
        have hRT : RT.length ≠ 0 := by intro h0; rw [List.length_eq_zero_iff.mp h0] at hb; simp at hb
        have hTk : T.length = k := by omega
        let P : α → Bool := fun x => !lt x b
        have c1 : T.countP P = T.length := by
          rw [List.countP_eq_length]; intro t ht; simp [P, hTR t ht b hb]
        have c2 : (q.heap ++ rest).countP P = (seen ++ T).countP P := hp.countP_eq P
        rw [List.countP_append, List.countP_append] at c2
        have c3 : q.heap.countP P < q.heap.length := by
          refine Nat.lt_of_le_of_ne List.countP_le_length ?_
          intro heq
          have := (List.countP_eq_length.mp heq) a ha
          simp [P, hab] at this
        have c4 : 0 < rest.countP P := by omega
        rw [List.countP_pos_iff] at c4
        obtain ⟨t, ht, hPt⟩ := c4
        have h1 := hr a ha t ht
        have h2 : lt t b = false := by simpa [P] using hPt
        have := hlt.negTrans a t b h1 h2
        rw [hab] at this; simp at this
  · rw [List.length_append]; omega

theorem insertShifted_spec {lt : S → S → Bool} (hlt : StrictWeak lt) (start : Nat) (hs : List (Hit S)) :
    ∀ (q : PQ (Hit S)) (k : Nat) (seen : List (Hit S)), Kept (hitLt lt) k seen q →
      ∃ q', insertShifted lt start q hs = .ok q' ∧ Kept (hitLt lt) k (seen ++ hs.map (shiftHit start)) q' := by
  induction hs with
  | nil => intro q k seen h; exact ⟨q, rfl, by simpa using h⟩
  | cons x xs ih =>
    intro q k seen h
    obtain ⟨q1, i, o, e1, k1⟩ := h.insert (hitLt_strictWeak hlt) (shiftHit start x)
    obtain ⟨q2, e2, k2⟩ := ih q1 k _ k1
    refine ⟨q2, ?_, by simpa using k2⟩
    simp only [insertShifted]
    rw [show (⟨x.doc + start, x.score⟩ : Hit S) = shiftHit start x from rfl, e1, Res.ok_bind]
    exact e2

/-- A usable sub-searcher: its stream has distinct documents below its size (any number that
fits an `int`), its filter bits select `pass`, and an index without live documents has no
matches. -/
structure SubOK (s : SubIn S) (pass : Nat → Bool) : Prop where
  distinct : (s.scorer.getD []).Pairwise (fun a b => a.doc ≠ b.doc)
  bound : ∀ h ∈ s.scorer.getD [], h.doc < s.maxDoc
  count : (s.scorer.getD []).length ≤ 2147483647
  bits : FilterBits s.bits pass
  live : s.numDocs = 0 → s.scorer.getD [] = []

/-- Every sub-searcher is usable with its own filter. -/
inductive AllOK : List (SubIn S) → List (Nat → Bool) → Prop
  | nil : AllOK [] []
  | cons {s p ss ps} : SubOK s p → AllOK ss ps → AllOK (s :: ss) (p :: ps)

theorem unionHits_bound (adjust : Nat → S → Option S) : ∀ (subs : List (SubIn S)) (ps : List (Nat → Bool)) (start : Nat),
    ∀ h ∈ unionHits adjust start subs ps, start ≤ h.doc := by
  intro subs
  induction subs with
  | nil => intro ps start h hh; cases ps <;> simp [unionHits] at hh
  | cons s ss ih =>
    intro ps start h hh
    cases ps with
    | nil => simp [unionHits] at hh
    | cons p ps =>
      simp only [unionHits, List.mem_append, List.mem_map] at hh
      rcases hh with ⟨a, _, rfl⟩ | hh
      · simp [shiftHit]
      · have := ih ps (start + s.maxDoc) h hh; omega

theorem accepted_mem {pass : Nat → Bool} {adj : Nat → S → Option S} {hits : List (Hit S)} {y : Hit S}
    (hy : y ∈ accepted pass adj hits) : ∃ z ∈ hits, z.doc = y.doc := by
  unfold accepted at hy
  rw [List.mem_filterMap] at hy
  obtain ⟨z, hz, hz2⟩ := hy
  refine ⟨z, hz, ?_⟩
  split at hz2
  · rw [Option.map_eq_some_iff] at hz2
    obtain ⟨_, _, rfl⟩ := hz2; rfl
  · simp at hz2

theorem unionHits_distinct (adjust : Nat → S → Option S) : ∀ (subs : List (SubIn S)) (ps : List (Nat → Bool)) (start : Nat),
    AllOK subs ps → DistinctDocs (unionHits adjust start subs ps) := by
  intro subs ps start h
  induction h generalizing start with
  | nil => exact List.Pairwise.nil
  | cons h1 _ ih =>
    simp only [unionHits]
    unfold DistinctDocs
    rw [List.pairwise_append]
    refine ⟨?_, ih _, ?_⟩
    · rw [List.pairwise_map]
      exact (accepted_distinct h1.distinct).imp (fun hne => by simp [shiftHit]; exact hne)
    · intro a ha b hb
      have hb' := unionHits_bound _ _ _ _ b hb
      rw [List.mem_map] at ha
      obtain ⟨a', ha', rfl⟩ := ha
      obtain ⟨z, hz, hzd⟩ := accepted_mem ha'
      have := h1.bound z hz
      simp only [shiftHit]; omega

/-- An index searcher's answer for the first page, NULL scorers included. -/
theorem sub_search (lt : S → S → Bool) (hlt : StrictWeak lt) (zero : S) (s : SubIn S) (pass : Nat → Bool) (h : SubOK s pass)
    (pf : Option (Nat → S → Option S)) (mx : Nat) (hmx : 0 < mx) (hle : mx ≤ 2147483647) :
    iseaSearchW lt zero s.scorer s.numDocs s.bits pf 0 (mx : Int) =
      .ok { totalHits := (accepted pass (adjustOf pf) (s.scorer.getD [])).length,
            hits := (ranking lt (accepted pass (adjustOf pf) (s.scorer.getD []))).take mx,
            maxScore := bestScore lt zero (accepted pass (adjustOf pf) (s.scorer.getD [])) } := by
  cases hs : s.scorer with
  | none =>
    have := c33_no_scorer lt zero s.bits pf s.numDocs 0 mx hmx (Or.inl (by omega))
    simp only [Int.natCast_zero] at this
    rw [this]; simp [accepted, ranking, bestScore]
  | some hits =>
    have h1 := h.distinct; have h2 := h.count; have h3 := h.live
    rw [hs] at h1 h2 h3
    have := c33_exact_page lt hlt zero hits h1 h2 s.bits pass h.bits pf s.numDocs h3 0 mx hmx (Or.inl (by omega))
    rw [show ((0 : Nat) : Int) = 0 from rfl] at this
    rw [this]; simp

theorem mseaLoop_spec (lt : S → S → Bool) (hlt : StrictWeak lt) (zero : S) (pf : Option (Nat → S → Option S))
    (mx : Nat) (hmx : 0 < mx) (hle : mx ≤ 2147483647) (subs : List (SubIn S)) (ps : List (Nat → Bool))
    (hok : AllOK subs ps) : ∀ (start : Nat) (c : Coll S) (seen : List (Hit S)),
      Kept (hitLt lt) mx seen c.hq → lt c.maxScore zero = false →
      ∃ c', mseaLoop lt zero pf (mx : Int) c (mkSubs start subs) = .ok c' ∧
        Kept (hitLt lt) mx (seen ++ unionHits (adjustOf pf) start subs ps) c'.hq ∧
        c'.total = c.total + (unionHits (adjustOf pf) start subs ps).length ∧
        c'.maxScore = bestScore lt c.maxScore (unionHits (adjustOf pf) start subs ps) := by
  induction hok with
  | nil => intro start c seen h _; exact ⟨c, rfl, by simpa [unionHits] using h, by simp [unionHits], rfl⟩
  | @cons s p ss ps h1 _ ih =>
    intro start c seen h hz
    simp only [mkSubs, mseaLoop, unionHits]
    rw [sub_search lt hlt zero s p h1 pf mx hmx hle, Res.ok_bind]
    simp only []
    generalize hacc : accepted p (adjustOf pf) (s.scorer.getD []) = acc
    obtain ⟨q1, e1, k1⟩ := insertShifted_spec hlt start ((ranking lt acc).take mx) c.hq mx seen h
    rw [e1, Res.ok_bind]
    have hrl : (ranking lt acc).length = acc.length := List.length_mergeSort _
    have k2 : Kept (hitLt lt) mx (seen ++ acc.map (shiftHit start)) q1 := by
      refine Kept.extend (hitLt_strictWeak hlt) (RT := ((ranking lt acc).drop mx).map (shiftHit start)) k1 ?_ ?_ ?_
      · rw [← List.map_append, List.take_append_drop]
        exact (List.mergeSort_perm _ _).map _
      · rw [List.length_map, List.length_take, List.length_map, hrl]
      · intro a ha b hb
        rw [List.mem_map] at ha hb
        obtain ⟨a, ha, rfl⟩ := ha
        obtain ⟨b, hb, rfl⟩ := hb
        rw [hitLt_shift]
        have hpw := List.pairwise_mergeSort (rankedBefore_trans hlt) (rankedBefore_total hlt) acc
        rw [show acc.mergeSort (rankedBefore lt) = (ranking lt acc).take mx ++ (ranking lt acc).drop mx from (List.take_append_drop _ _).symm,
          List.pairwise_append] at hpw
        have := hpw.2.2 a ha b hb
        rw [rankedBefore_eq hlt] at this; simpa using this
    have hms : (if ((ranking lt acc).take mx).length > 0 ∧ lt c.maxScore (bestScore lt zero acc) = true then bestScore lt zero acc else c.maxScore)
        = bestScore lt c.maxScore (acc.map (shiftHit start)) := by
      have hmap : ∀ z, bestScore lt z (acc.map (shiftHit start)) = bestScore lt z acc := by
        intro z; unfold bestScore; rw [List.foldl_map]; rfl
      rw [hmap]
      have hlm : lmax lt c.maxScore zero = c.maxScore := by unfold lmax; rw [hz]; rfl
      have := bestScore_lmax hlt c.maxScore zero acc
      rw [hlm] at this
      rw [this]
      unfold lmax
      by_cases hne : acc = []
      · subst hne; simp [bestScore, hz]
      · have hpos : ((ranking lt acc).take mx).length > 0 := by
          rw [List.length_take, hrl]
          have := List.length_pos_iff.mpr hne; omega
        by_cases hl : lt c.maxScore (bestScore lt zero acc) = true
        · rw [if_pos ⟨hpos, hl⟩, if_pos hl]
        · rw [if_neg (fun h => hl h.2), if_neg hl]
    rw [hms]
    obtain ⟨c', e2, k3, t3, m3⟩ := ih (start + s.maxDoc) { hq := q1, total := c.total + acc.length, maxScore := bestScore lt c.maxScore (acc.map (shiftHit start)) }
      (seen ++ acc.map (shiftHit start)) k2
      (hlt.negTrans _ _ _ (bestScore_ge hlt c.maxScore _) hz)
    refine ⟨c', e2, ?_, ?_, ?_⟩
    · rw [← List.append_assoc]; exact k3
    · rw [t3]; simp; omega
    · rw [m3]; unfold bestScore; rw [List.foldl_append]

/-- **C34.** For any number of sub-searchers with any match streams, filters, post filter and
any valid page request, the multi-searcher returns the same total, page and best score as
ranking the union of all accepted hits with documents renumbered by the sub-index starts. -/
theorem c34_multi_search_is_union (lt : S → S → Bool) (hlt : StrictWeak lt) (zero : S) (subs : List (SubIn S))
    (ps : List (Nat → Bool)) (hok : AllOK subs ps) (pf : Option (Nat → S → Option S))
    (first num : Nat) (hnum : 0 < num) (hfit : first + num ≤ 2147483647 ∨ num = 2147483647)
    (hcount : (unionHits (adjustOf pf) 0 subs ps).length ≤ 2147483647) :
    mseaSearchW lt zero (mkSubs 0 subs) pf (first : Int) (num : Int) =
      .ok { totalHits := (unionHits (adjustOf pf) 0 subs ps).length,
            hits := ((ranking lt (unionHits (adjustOf pf) 0 subs ps)).drop first).take num,
            maxScore := bestScore lt zero (unionHits (adjustOf pf) 0 subs ps) } := by
  unfold mseaSearchW
  obtain ⟨mx, e1, hmxle, hmx⟩ := maxSize_ok first num hfit
  rw [e1, Res.ok_bind, checkArgs_ok first num hnum, Res.ok_bind]
  obtain ⟨c, e2, k2, t2, m2⟩ := mseaLoop_spec lt hlt zero pf mx (by omega) (by omega) subs ps hok 0
    { hq := PQ.new mx, total := 0, maxScore := zero } [] (kept_new _ _) (hlt.irrefl zero)
  simp only [Int.toNat_natCast]
  rw [e2, Res.ok_bind]
  rw [List.nil_append] at k2
  rw [page_spec hlt k2 (unionHits_distinct _ _ _ _ hok) first num (by
    rcases hmx with h | ⟨h1, h2⟩
    · exact Or.inl h
    · right; omega)]
  rw [Res.ok_bind, t2, m2]
  simp

/-- Non-vacuity: three sub-searchers (one without a scorer), ties across sub-searchers. -/
example : mseaSearchW (fun a b : Nat => decide (a < b)) 0
    (mkSubs 0 [⟨3, some [⟨0, 5⟩, ⟨2, 9⟩], 3, none⟩, ⟨4, none, 4, none⟩, ⟨2, some [⟨0, 9⟩, ⟨1, 5⟩], 2, none⟩]) none 1 2
    = .ok ⟨4, [⟨7, 9⟩, ⟨0, 5⟩], 9⟩ := by decide
example : SubOK (⟨3, some [⟨0, 5⟩, ⟨2, 9⟩], 3, none⟩ : SubIn Nat) (fun _ => true) :=
  ⟨by decide, by decide, by decide, by intro d; rfl, by intro h; simp at h⟩

#print axioms c34_multi_search_is_union

end Ferret.Props
