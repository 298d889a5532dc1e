import Verif.Lemmas.SpanMatch
import Verif.Lemmas.SpanTree
import Verif.Props.C47

/-!
C71: what highlighting with a span query marks.

For every term vector and every supported query that has a span in it, exactly the positions are marked that lie in a span
of the query and at which one of its terms occurs, each once for each such term; what was marked before stays.

Without a span the code reads a range that was never written, as soon as a term of the query is in the vector
(`c71_no_span`); it does so too for a `near` with a term that is not in the vector (`c71_near_absent`); and any of several
terms (a prefix query, say) reads past the end of the positions (`c71_multi_reads_past`).
-/

namespace Ferret.Props

open Ferret.Span Ferret.Spec Ferret.MV
open Ferret.Post (Posting)

variable {T : Type} [DecidableEq T]

/-- `qsort`, of ranges. -/
def RangeSort (sort : List MR → List MR) : Prop := ∀ rs, (sort rs).Perm rs ∧ (sort rs).Pairwise fun a b => cmp a b ≤ 0

/-- The position is in one of the spans. -/
def inSpan (L : List Sp) (p : Int) : Bool := L.any fun x => decide (x.start ≤ p ∧ p < x.stop)

/-- The ranges of the spans. -/
theorem c71_full (L : List Sp) : L.foldl (fun m x => mvAdd m x.start (x.stop - 1)) mvNew =
    addedRanges (L.map fun x => (x.start, x.stop - 1)) := by
  unfold addedRanges
  rw [List.foldl_map]

/-- Marking with a supported query that has spans. -/
theorem c71_marks_partial {tv : T → Option (List Int)} (hv : VectorOK tv) {sort : List MR → List MR} (hsort : RangeSort sort)
    (q : SpanQ T) (hq : SupportedW (vectorLeaves tv) q = true) :
    ∃ L, spansFrom (.vector tv) q = .ok L ∧ Says (asIndex tv) q L ∧
      (L ≠ [] → ∀ mv : MV, ∃ (ts : List T) (marks : List Int), ts.Nodup ∧ (∀ t, t ∈ ts ↔ Mentions q t) ∧
        marks = (ts.flatMap fun t => ((tv t).getD []).filter (inSpan L)) ∧
        spanMatchv sort true tv q mv = .ok ⟨mv.matches_ ++ marks.map (fun p => ⟨p, p, 1⟩), mv.size + marks.length⟩) := by
  obtain ⟨L, h1, h2, h3⟩ := spansFrom_spec (leaf_vector hv) q hq
  refine ⟨L, h1, h3, fun hL mv => ?_⟩
  obtain ⟨t1, t2⟩ := getTerms_spec q
  refine ⟨getTerms q, _, t1, t2, rfl, ?_⟩
  have hne : (L.map fun x => (x.start, x.stop - 1)) ≠ [] := by simpa using hL
  have hst : SortedTo (addedRanges (L.map fun x => (x.start, x.stop - 1))) (sort (addedRanges (L.map fun x => (x.start, x.stop - 1))).matches_) :=
    ⟨(hsort _).1, (hsort _).2⟩
  obtain ⟨full, out, f1, f2, f3, _, f5⟩ := C47_compact_partial _ hne (fun r hr => by
    obtain ⟨x, hx, rfl⟩ := List.mem_map.1 hr
    have := (h2.2 x hx).2.2.2.2
    dsimp only; omega) _ hst
  unfold spanMatchv
  rw [if_pos rfl, h1, Res.ok_bind]
  dsimp only
  rw [c71_full, f1, Res.ok_bind]
  unfold ranges at f2
  by_cases hs : full.size ≤ full.matches_.length
  · rw [if_pos hs, Res.ok.injEq] at f2
    subst f2
    have ha : Apart (full.matches_.take full.size) := by
      unfold Spec.apart at f3
      rw [List.pairwise_map] at f3
      refine f3.imp fun {a b} h => ?_
      simp only [MR.view] at h
      omega
    have hin : ∀ p, inside (full.matches_.take full.size) p = inSpan L p := by
      intro p
      rw [Bool.eq_iff_iff]
      have h := f5 p
      simp only [inside, inSpan, List.any_eq_true, decide_eq_true_eq]
      constructor
      · rintro ⟨m, hm, g1, g2⟩
        obtain ⟨r, hr, g3, g4⟩ := h.1 ⟨m.view, List.mem_map_of_mem hm, g1, g2⟩
        obtain ⟨r', hr', rfl⟩ := List.mem_map.1 hr
        obtain ⟨x, hx, rfl⟩ := List.mem_map.1 hr'
        dsimp only at g3 g4
        exact ⟨x, hx, g3, by omega⟩
      · rintro ⟨x, hx, g1, g2⟩
        obtain ⟨r, hr, g3, g4⟩ := h.2 ⟨((x.start, x.stop - 1), 1), List.mem_map_of_mem (List.mem_map_of_mem hx), g1, by dsimp only; omega⟩
        obtain ⟨m, hm, rfl⟩ := List.mem_map.1 hr
        exact ⟨m, hm, g3, g4⟩
    rw [mvToTermMv_spec hs ha hv, show inside (full.matches_.take full.size) = inSpan L from funext hin]
    rfl
  · rw [if_neg hs] at f2; cases f2

/-- Another field: nothing is marked. -/
theorem c71_other_field (sort : List MR → List MR) (tv : T → Option (List Int)) (q : SpanQ T) (mv : MV) :
    spanMatchv sort false tv q mv = .ok mv := rfl

/-- Which positions are marked. -/
theorem c71_marked_iff {tv : T → Option (List Int)} (hv : VectorOK tv) {sort : List MR → List MR} (hsort : RangeSort sort)
    (q : SpanQ T) (hq : SupportedW (vectorLeaves tv) q = true) :
    ∃ L, spansFrom (.vector tv) q = .ok L ∧ Says (asIndex tv) q L ∧
      (L ≠ [] → ∃ out, spanMatchv sort true tv q mvNew = .ok out ∧ out.size = out.matches_.length ∧
        ∀ m, m ∈ out.matches_ ↔ ∃ p, m = ⟨p, p, 1⟩ ∧ (∃ t ps, Mentions q t ∧ tv t = some ps ∧ p ∈ ps) ∧ ∃ x ∈ L, x.start ≤ p ∧ p < x.stop) := by
  obtain ⟨L, h1, h2, h3⟩ := c71_marks_partial hv hsort q hq
  refine ⟨L, h1, h2, fun hL => ?_⟩
  obtain ⟨ts, marks, _, h5, rfl, h7⟩ := h3 hL mvNew
  refine ⟨_, h7, by simp [mvNew], fun m => ?_⟩
  simp only [mvNew, List.nil_append, List.mem_map, List.mem_flatMap, List.mem_filter, inSpan, List.any_eq_true, decide_eq_true_eq]
  constructor
  · rintro ⟨p, ⟨t, ht, hp, hx⟩, rfl⟩
    cases e : tv t with
    | none => rw [e] at hp; cases hp
    | some ps => rw [e] at hp; exact ⟨p, rfl, ⟨t, ps, (h5 t).1 ht, e, hp⟩, hx⟩
  · rintro ⟨p, rfl, ⟨t, ps, ht, e, hp⟩, hx⟩
    exact ⟨p, ⟨t, (h5 t).2 ht, by rw [e]; exact hp, hx⟩, rfl⟩

/-- Without spans, the code reads a range never written if a term of the query is in the vector; otherwise nothing is
marked. -/
theorem c71_no_span {tv : T → Option (List Int)} (hv : VectorOK tv) {sort : List MR → List MR} (hsort : RangeSort sort)
    (q : SpanQ T) (h : spansFrom (.vector tv) q = .ok []) (mv : MV) :
    ((∃ t, Mentions q t ∧ (tv t).isSome) → spanMatchv sort true tv q mv = .ub) ∧
    ((∀ t, Mentions q t → tv t = none) → spanMatchv sort true tv q mv = .ok mv) := by
  have hnil : sort [] = [] := (hsort []).1.eq_nil
  have e1 : spanMatchv sort true tv q mv = mvToTermMv ⟨[], 1⟩ tv (getTerms q) mv := by
    unfold spanMatchv
    rw [if_pos rfl, h, Res.ok_bind]
    dsimp only [List.foldl, mvNew]
    rw [hnil]
    rfl
  rw [e1, mvToTermMv_none hv]
  obtain ⟨_, t2⟩ := getTerms_spec q
  refine ⟨fun ⟨t, h1, h2⟩ => if_pos ⟨t, (t2 t).2 h1, h2⟩, fun hn => if_neg ?_⟩
  rintro ⟨t, h1, h2⟩
  rw [hn t ((t2 t).1 h1)] at h2
  cases h2

/-! ### Examples -/

/-- Four terms, one not in the vector. -/
def c71Vector (t : Fin 4) : Option (List Int) := [some [0, 3, 7], some [1, 4, 9], some [2, 5], none][t]

theorem c71_vector_ok : VectorOK c71Vector := by unfold VectorOK; intro t ps h; revert ps; revert t; decide

def c71Query : SpanQ (Fin 4) := .not (.or [.near [.term 0, .term 1] 0 true, .term 3, .first (.term 2) 4]) (.first (.term 1) 2)

theorem c71_sort : RangeSort fun rs => rs.mergeSort fun a b => decide (cmp a b ≤ 0) := by
  intro rs
  refine ⟨List.mergeSort_perm .., ?_⟩
  refine (List.pairwise_mergeSort (le := fun a b => decide (cmp a b ≤ 0)) ?_ ?_ rs).imp fun h => of_decide_eq_true h
  · intro a b c h1 h2
    have h1 := of_decide_eq_true h1
    have h2 := of_decide_eq_true h2
    refine decide_eq_true ?_
    unfold cmp at *
    repeat' split at h1
    all_goals repeat' split at h2
    all_goals split <;> omega
  · intro a b
    simp only [Bool.or_eq_true, decide_eq_true_eq]
    unfold cmp
    repeat' split
    all_goals omega

/-- A query with spans, one of its terms not in the vector. -/
example : SupportedW (vectorLeaves c71Vector) c71Query = true ∧
    (match spansFrom (.vector c71Vector) c71Query with
      | .ok L => L.map (fun x => (x.doc, x.start, x.stop)) == [(0, 2, 3), (0, 3, 5)]
      | _ => false) = true := ⟨by decide +kernel, by decide +kernel⟩

/-- What is marked, for comparison. -/
def c71Shows (r : Res MV) (l : List Int) : Bool :=
  match r with
  | .ok mv => mv.matches_.map (·.start) == l && mv.size == l.length
  | _ => false

example : c71Shows (spanMatchv (fun rs => rs) true c71Vector c71Query mvNew) [3, 4, 2] = true := by decide +kernel

/-! ### Witnesses -/

/-- A document that has both terms, but not near enough: the memory read was never written. -/
theorem c71_apart_reads_unwritten : SupportedW (vectorLeaves c71Vector) (.near [.term 1, .term 0] 0 true) = true ∧
    (spanMatchv (fun rs => rs) true c71Vector (.near [.term 1, .term 0] 0 true) mvNew matches .ub) := ⟨by decide +kernel, by decide +kernel⟩

/-- A `near` with a term that is not in the vector: the enumerator says it has the document, and its positions are read
though there are none. -/
theorem c71_near_absent : spansFrom (.vector c71Vector) (.near [.term 0, .term 3] 5 true) matches .ub := by decide +kernel

/-- An index of this document has no such spans, and says so. -/
theorem c71_near_absent_index : (match spansOf (asIndex c71Vector) (.near [.term 0, .term 3] 5 true) with | .ok [] => true | _ => false) = true := by
  decide +kernel

theorem c71_run (ps : List Int) : ∀ n i, n = ps.length - i → tvTpewRun (n + 1) ⟨-1, i, some ps⟩ = .ub
  | 0, i, h => by
    have : ps[i]? = none := List.getElem?_eq_none (by omega)
    simp [tvTpewRun, tvTpewNext, tvNextPosition, Res.ofOption, this]
  | n + 1, i, h => by
    have hi : i < ps.length := by omega
    unfold tvTpewRun
    simp only [tvTpewNext, tvNextPosition, Res.ofOption, List.getElem?_eq_getElem hi, Res.ok_bind]
    rw [c71_run ps n (i + 1) (by omega)]
    rfl

/-- Any of several terms: whatever the vector, the positions of a term are read past their end. -/
theorem c71_multi_reads_past (ps : List Int) :
    tvTpewRun (ps.length + 1) (TvTde.new (some ps)) = .ub ∧ tvTpewRun 1 (TvTde.new none) = .ub := ⟨c71_run ps _ 0 (by simp), rfl⟩

#print axioms c71_marks_partial
#print axioms c71_marked_iff
#print axioms c71_other_field
#print axioms c71_no_span
#print axioms c71_apart_reads_unwritten
#print axioms c71_near_absent
#print axioms c71_near_absent_index
#print axioms c71_multi_reads_past
end Ferret.Props
