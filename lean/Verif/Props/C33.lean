import Verif.Lemmas.Search
import Verif.Props.C02

/-! C33: a search returns exactly the requested page of the ranking. -/

namespace Ferret.Props
open Ferret.Search Ferret.Spec

variable {S : Type}

theorem maxSize_ok (first num : Nat) (hfit : first + num ≤ 2147483647 ∨ num = 2147483647) :
    ∃ mx : Nat, maxSize (num : Int) (first : Int) = .ok (mx : Int) ∧ mx ≤ 2147483647 ∧ (mx = first + num ∨ (num = 2147483647 ∧ mx = 2147483647)) := by
  unfold maxSize intMax
  by_cases h : num = 2147483647
  · subst h
    refine ⟨2147483647, ?_, by omega, Or.inr ⟨rfl, rfl⟩⟩
    simp
  · refine ⟨first + num, ?_, by omega, Or.inl rfl⟩
    simp only []
    rw [if_neg (by omega : ¬ ((num : Int) = 2147483647)), if_neg (by omega)]
    congr 1; omega

theorem checkArgs_ok (first num : Nat) (h : 0 < num) : checkArgs (num : Int) (first : Int) = .ok () := by
  unfold checkArgs
  rw [if_neg (by omega), if_neg (by omega)]

/-- **C33.** For every stream of matches (distinct documents) with scores in any total order,
every filter bit vector, every post filter and every valid page request, `search` is defined
and returns: the number of accepted matches, exactly ranks `first .. first+num-1` of the
ranking (score descending, document ascending), and the greatest score.
`hfit` excludes only requests whose `first + num` overflows a C `int` (see
`c33_violated_page_overflow`); `hlive` is the reader's own guarantee that an index without
live documents has no matches; the match count fits an `int`. -/
theorem c33_exact_page (lt : S → S → Bool) (hlt : StrictWeak lt) (zero : S) (hits : List (Hit S))
    (hd : hits.Pairwise (fun a b => a.doc ≠ b.doc)) (hcount : hits.length ≤ 2147483647)
    (bits : Option BitVector.BV) (pass : Nat → Bool) (hb : FilterBits bits pass)
    (pf : Option (Nat → S → Option S)) (numDocs : Nat) (hlive : numDocs = 0 → hits = [])
    (first num : Nat) (hnum : 0 < num) (hfit : first + num ≤ 2147483647 ∨ num = 2147483647) :
    iseaSearchW lt zero (some hits) numDocs bits pf (first : Int) (num : Int) =
      .ok { totalHits := (accepted pass (adjustOf pf) hits).length,
            hits := ((ranking lt (accepted pass (adjustOf pf) hits)).drop first).take num,
            maxScore := bestScore lt zero (accepted pass (adjustOf pf) hits) } := by
  unfold iseaSearchW
  obtain ⟨mx, e1, _, hmx⟩ := maxSize_ok first num hfit
  rw [e1, Res.ok_bind, checkArgs_ok first num hnum, Res.ok_bind]
  simp only []
  by_cases h0 : numDocs = 0
  · rw [if_pos h0, hlive h0]
    simp [accepted, ranking, bestScore]
  · rw [if_neg h0]
    obtain ⟨c, e2, k2, t2, m2⟩ := collect_spec hlt bits pass hb pf hits
      { hq := PQ.new mx, total := 0, maxScore := zero } mx [] (kept_new _ _)
    simp only [Int.toNat_natCast]
    rw [e2, Res.ok_bind, List.nil_append] at *
    have hacc : (accepted pass (adjustOf pf) hits).length ≤ hits.length := List.length_filterMap_le _ _
    rw [page_spec hlt k2 (accepted_distinct hd) first num (by
      rcases hmx with h | ⟨h1, h2⟩
      · exact Or.inl h
      · right; omega)]
    rw [Res.ok_bind, t2, m2]
    simp

/-- A NULL scorer (no matching term) gives the empty page. -/
theorem c33_no_scorer (lt : S → S → Bool) (zero : S) (bits : Option BitVector.BV)
    (pf : Option (Nat → S → Option S)) (numDocs first num : Nat) (hnum : 0 < num)
    (hfit : first + num ≤ 2147483647 ∨ num = 2147483647) :
    iseaSearchW lt zero none numDocs bits pf (first : Int) (num : Int) = .ok ⟨0, [], zero⟩ := by
  unfold iseaSearchW
  obtain ⟨mx, e1, _⟩ := maxSize_ok first num hfit
  rw [e1, Res.ok_bind, checkArgs_ok first num hnum, Res.ok_bind]

/-- Invalid paging arguments raise an argument error (whenever their sum is representable). -/
theorem c33_invalid_paging (lt : S → S → Bool) (zero : S) (scorer : Option (List (Hit S))) (numDocs : Nat)
    (bits : Option BitVector.BV) (pf : Option (Nat → S → Option S)) (first num : Int)
    (hbad : num ≤ 0 ∨ first < 0) (hrep : -2147483648 ≤ num + first ∧ num + first ≤ 2147483647) :
    iseaSearchW lt zero scorer numDocs bits pf first num = .raise .arg := by
  unfold iseaSearchW maxSize intMax
  simp only []
  by_cases h : num = 2147483647
  · rw [if_pos h, if_neg (by omega)]
    simp only [Res.ok_bind, checkArgs]
    rw [if_neg (by omega), if_pos (by omega)]
    rfl
  · rw [if_neg h, if_neg (by omega)]
    simp only [Res.ok_bind, checkArgs]
    by_cases h2 : num ≤ 0
    · rw [if_pos h2]; rfl
    · rw [if_neg h2, if_pos (by omega)]; rfl

/-- **Violation.** A request such as `first = 2, num = INT_MAX - 1` overflows the computation
of the queue size: undefined behaviour instead of a page. -/
theorem c33_violated_page_overflow (lt : S → S → Bool) (zero : S) (scorer : Option (List (Hit S))) (numDocs : Nat)
    (bits : Option BitVector.BV) (pf : Option (Nat → S → Option S)) :
    iseaSearchW lt zero scorer numDocs bits pf 2 2147483646 = .ub := by
  rfl

/-- Filter bit vectors of every kind satisfy the hypothesis of `c33_exact_page`. -/
theorem filterBits_of_expr (e : BitExpr) : ∃ bv, bvEval e = .ok bv ∧ FilterBits (some bv) e.bit := by
  obtain ⟨bv, h, g⟩ := c02_algebra_is_pointwise e
  exact ⟨bv, h, g⟩

/-- Non-vacuity: seven hits with ties, a filter removing one, a post filter removing another
and second page of two. -/
example :
    let hits : List (Hit Nat) := [⟨0, 5⟩, ⟨1, 9⟩, ⟨2, 5⟩, ⟨3, 1⟩, ⟨4, 9⟩, ⟨5, 7⟩, ⟨6, 5⟩]
    ∃ bv, bvEval (.not (.hist [.set 4])) = .ok bv ∧
      iseaSearchW (fun a b : Nat => decide (a < b)) 0 (some hits) 7 (some bv) (some (fun d s => if d = 3 then none else some s)) 2 2
        = .ok ⟨5, [⟨0, 5⟩, ⟨2, 5⟩], 9⟩ :=
  ⟨_, rfl, by decide⟩

#print axioms c33_exact_page
#print axioms c33_invalid_paging

#print axioms c33_no_scorer
#print axioms c33_violated_page_overflow
end Ferret.Props
