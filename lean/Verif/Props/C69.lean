import Verif.Lemmas.SpanTree

/-!
C69: the spans of a span query.

For every index and every supported span query, going through its spans with `next` ends and gives, in order of document
and start, the spans the query asks for (`Spec.Says`): those of a term are its occurrences; of `first`, the spans that
end early enough; of `or`, the spans of all clauses, each as often as the clauses have it; of `not`, the spans that share
no position with one of the excluded query; of `near`, texts of one span of each clause with not more than the slop in
between, in order if asked for, and, when the clauses are single positions, all such texts contain one that is reported.

Not supported are queries for which the code reads the top of an empty queue (witness `c69_near_or_crashes`) or asks an
enumerator where it is after its end; for clauses longer than a position a text that is near enough may be missed
(witness `c69_near_misses`).
-/

namespace Ferret.Props

open Ferret.Span Ferret.Spec
open Ferret.Post (Posting)

variable {T : Type} {ix : T → List Posting}

/-- Going through the spans of a supported query gives what it asks for. -/
theorem c69_spans_partial (hix : IndexOK ix) (q : SpanQ T) (hq : Supported q = true) :
    ∃ L, spansOf ix q = .ok L ∧ L.Pairwise SpLe ∧ Says ix q L := by
  obtain ⟨L, h1, h2, h3⟩ := spansOf_spec hix q hq
  exact ⟨L, h1, h2.1, h3⟩

theorem c69_all_terms : ∀ {ts : List T} {Ks : List (List Sp)}, SaysAll ix (ts.map SpanQ.term) Ks →
    (∀ xs, Pick Ks xs ↔ xs.length = ts.length ∧ ∀ p ∈ ts.zip xs, OccursAt ix p.1 p.2) ∧ ∀ K ∈ Ks, Single K
  | [], Ks, h => by
    simp only [List.map_nil, SaysAll] at h
    subst h
    refine ⟨fun xs => ⟨fun h => by cases h; simp, fun h => ?_⟩, (fun _ h => nomatch h)⟩
    rw [List.length_eq_zero_iff.1 h.1]
    exact .nil
  | t :: ts, Ks, h => by
    simp only [List.map_cons, SaysAll] at h
    obtain ⟨K, Ks', h1, h2, rfl⟩ := h
    simp only [Says] at h1
    obtain ⟨i1, i2⟩ := c69_all_terms h2
    refine ⟨fun xs => ⟨fun h => ?_, fun h => ?_⟩, ?_⟩
    · cases h with
      | cons hx h =>
        obtain ⟨j1, j2⟩ := (i1 _).1 h
        refine ⟨by simp [j1], fun p hp => ?_⟩
        rw [List.zip_cons_cons] at hp
        rcases List.mem_cons.1 hp with rfl | hp
        · exact (h1.2 _).1 hx
        · exact j2 p hp
    · cases xs with
      | nil => cases h.1
      | cons x xs =>
        refine .cons ((h1.2 x).2 (h.2 (t, x) (by simp))) ((i1 xs).2 ⟨by simpa using h.1, fun p hp => h.2 p (by simp [hp])⟩)
    · intro C hC
      rcases List.mem_cons.1 hC with rfl | hC
      · intro x hx
        obtain ⟨_, _, _, _, h⟩ := (h1.2 x).1 hx
        exact h
      · exact i2 C hC

theorem c69_terms_supported (t t' : T) (ts : List T) (slop : Int) (inOrder : Bool) :
    Supported (.near ((t :: t' :: ts).map SpanQ.term) slop inOrder) = true := by
  have h : ∀ ts : List T, allSupportedW indexLeaves (ts.map SpanQ.term) = true ∧ allJumpW indexLeaves (ts.map SpanQ.term) = true ∧ (ts.map SpanQ.term).all startsSafely = true := by
    intro ts
    induction ts with
    | nil => exact ⟨by simp [allSupportedW], by simp [allJumpW], rfl⟩
    | cons a ts ih => exact ⟨by simp [allSupportedW, SupportedW, ih.1], by simp [allJumpW, jumpsW, ih.2.1], by simp [startsSafely]⟩
  obtain ⟨h1, h2, h3⟩ := h (t' :: ts)
  rw [List.map_cons] at h1 h2 h3 ⊢
  simp only [List.map_cons, SupportedW, h1, h2, h3, jumpsW, Bool.and_self]

/-- Terms near one another: each span reported is the text of one occurrence of each term with at most the slop in
between, and each such text contains a span that is reported. -/
theorem c69_near_terms (hix : IndexOK ix) (t t' : T) (ts : List T) (slop : Int) (inOrder : Bool) :
    ∃ L, spansOf ix (.near ((t :: t' :: ts).map .term) slop inOrder) = .ok L ∧ L.Pairwise SpLe ∧
      (∀ z ∈ L, ∃ xs : List Sp, (xs.length = (t :: t' :: ts).length ∧ ∀ p ∈ (t :: t' :: ts).zip xs, OccursAt ix p.1 p.2) ∧ Near slop inOrder z xs) ∧
      ∀ (z : Sp) (xs : List Sp), (xs.length = (t :: t' :: ts).length ∧ ∀ p ∈ (t :: t' :: ts).zip xs, OccursAt ix p.1 p.2) → Near slop inOrder z xs →
        ∃ w ∈ L, w.doc = z.doc ∧ z.start ≤ w.start ∧ w.stop ≤ z.stop := by
  obtain ⟨L, h1, h2, h3⟩ := c69_spans_partial hix _ (c69_terms_supported t t' ts slop inOrder)
  refine ⟨L, h1, h2, ?_⟩
  have h4 : ∃ Ks, SaysAll ix ((t :: t' :: ts).map SpanQ.term) Ks ∧ L.Pairwise SpLe ∧ NearSpans slop inOrder Ks L := by
    simp only [List.map_cons] at h3 ⊢
    simp only [Says] at h3
    exact h3
  obtain ⟨Ks, h5, _, h6, h7⟩ := h4
  obtain ⟨h8, h9⟩ := c69_all_terms h5
  refine ⟨fun z hz => ?_, fun z xs hxs hn => h7 h9 z xs ((h8 xs).2 hxs) hn⟩
  obtain ⟨xs, h10, h11⟩ := h6 z hz
  exact ⟨xs, (h8 xs).1 h10, h11⟩

/-! ### Examples -/

/-- Three terms in three documents. -/
def c69Index (t : Fin 3) : List Posting :=
  [[⟨0, 2, [0, 3]⟩, ⟨1, 1, [5]⟩, ⟨2, 2, [1, 4]⟩], [⟨0, 2, [1, 2]⟩, ⟨2, 2, [0, 7]⟩], [⟨0, 1, [2]⟩, ⟨1, 1, [6]⟩, ⟨2, 1, [2]⟩]][t]

theorem c69_index_ok : IndexOK c69Index where
  docs t := ⟨by revert t; decide, by revert t; decide, by revert t; decide⟩
  pos t := by revert t; decide
  lim t := by revert t; decide

/-- A query with all operators. -/
def c69Query : SpanQ (Fin 3) := .not (.near [.first (.or [.term 0, .multi [1, 2]]) 5, .term 0] 3 false) (.near [.term 0, .term 2] 0 true)

example : IndexOK c69Index ∧ Supported c69Query = true := ⟨c69_index_ok, by decide +kernel⟩

/-- The spans, for comparison. -/
def c69Shows (r : Res (List Sp)) (l : List (Int × Int × Int)) : Bool :=
  match r with
  | .ok L => L.map (fun x => (x.doc, x.start, x.stop)) == l
  | _ => false

example : c69Shows (spansOf c69Index c69Query) [(0, 0, 1), (0, 0, 2), (0, 1, 4), (0, 2, 4), (0, 3, 4), (2, 4, 5)] = true := by decide +kernel

example : c69Shows (spansOf c69Index (.near [.term 0, .term 1] 3 false)) [(0, 0, 2), (0, 1, 4), (0, 2, 4), (2, 0, 2), (2, 4, 8)] = true := by decide +kernel

example : ∃ L, spansOf c69Index (.near [.term 0, .term 1] 3 false) = .ok L ∧ Says c69Index (.near [.term 0, .term 1] 3 false) L := by
  obtain ⟨L, h1, _, h2⟩ := c69_spans_partial c69_index_ok (.near [.term 0, .term 1] 3 false) (by decide +kernel)
  exact ⟨L, h1, h2⟩

/-! ### Witnesses -/

/-- A `near` whose second clause is an `or`: the code asks the `or` where it is before it has moved, and reads the top of
an empty queue. -/
theorem c69_near_or_crashes : spansOf c69Index (.near [.term 0, .or [.term 1, .term 2]] 3 false) matches .ub := by decide +kernel

/-- With the `or` first the spans are found. -/
theorem c69_or_near : c69Shows (spansOf c69Index (.near [.or [.term 1, .term 2], .term 0] 0 false))
    [(0, 0, 2), (0, 2, 4), (0, 2, 4), (1, 5, 7), (2, 0, 2), (2, 1, 3)] = true := by decide +kernel

/-- A `near` without clauses reads a clause it does not have. -/
theorem c69_near_nothing_crashes : spansOf c69Index (.near [] 3 false) matches .ub := by decide +kernel

/-- A term near itself, even in order and without slop: each single occurrence is reported. -/
theorem c69_near_itself : c69Shows (spansOf c69Index (.near [.term 0, .term 0] 0 true))
    [(0, 0, 1), (0, 3, 4), (1, 5, 6), (2, 1, 2), (2, 4, 5)] = true := by decide +kernel

/-- Terms `x`, `a`, `y`, `z` in one document. -/
def c69Long (t : Fin 4) : List Posting := [[⟨0, 1, [7]⟩], [⟨0, 1, [5]⟩], [⟨0, 1, [8]⟩], [⟨0, 1, [11]⟩]][t]

theorem c69_long_ok : IndexOK c69Long where
  docs t := ⟨by revert t; decide, by revert t; decide, by revert t; decide⟩
  pos t := by revert t; decide
  lim t := by revert t; decide

def c69LongClauses : List (SpanQ (Fin 4)) :=
  [.or [.term 0, .near [.term 2, .term 3] 9 true], .term 1, .near [.term 2, .term 3] 9 true]

/-- Clauses longer than a position: the clauses have spans near enough, but none is reported. -/
theorem c69_near_misses : IndexOK c69Long ∧ Supported (.near c69LongClauses 0 false) = true ∧
    c69Shows (spansOf c69Long (.near c69LongClauses 0 false)) [] = true ∧
    c69Shows (spansOf c69Long (.or [.term 0, .near [.term 2, .term 3] 9 true])) [(0, 7, 8), (0, 8, 12)] = true ∧
    c69Shows (spansOf c69Long (.term 1)) [(0, 5, 6)] = true ∧
    c69Shows (spansOf c69Long (.near [.term 2, .term 3] 9 true)) [(0, 8, 12)] = true ∧
    Near 0 false ⟨0, 5, 12⟩ [⟨0, 8, 12⟩, ⟨0, 5, 6⟩, ⟨0, 8, 12⟩] := by
  refine ⟨c69_long_ok, by decide +kernel, by decide +kernel, by decide +kernel, by decide +kernel, by decide +kernel, ?_⟩
  refine ⟨⟨?_, ⟨⟨0, 5, 6⟩, by simp, rfl⟩, ⟨0, 8, 12⟩, by simp, rfl⟩, by decide⟩
  intro x hx
  simp only [List.mem_cons, List.not_mem_nil, or_false] at hx
  rcases hx with rfl | rfl | rfl <;> decide

#print axioms c69_spans_partial
#print axioms c69_near_terms
#print axioms c69_near_or_crashes
#print axioms c69_or_near
#print axioms c69_near_nothing_crashes
#print axioms c69_near_itself
#print axioms c69_near_misses
end Ferret.Props
