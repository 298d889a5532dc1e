/-!
Boolean queries and what they mean, independent of the code.
-/

namespace Ferret.Spec

/-- The three kinds of clause. -/
inductive Occur where
  | should | must | mustNot
  deriving DecidableEq, Repr

/-- Queries: a leaf (term, phrase, ...), all documents, or a list of clauses. -/
inductive BQuery (L : Type) where
  | leaf (l : L)
  | all
  | bool (cs : List (Occur × BQuery L))

namespace BQuery

variable {L : Type} (D : L → Int → Bool) (live : Int → Bool) (d : Int)

mutual
/-- Does document `d` match? `D` tells which documents match a leaf, `live` which exist. -/
def matches' : BQuery L → Bool
  | .leaf l => D l d
  | .all => live d
  | .bool cs =>
    allMust cs && !anyOf .mustNot cs &&
      (cs.any (·.1 = .must) || anyOf .should cs || (!cs.isEmpty && cs.all (·.1 = .mustNot) && live d))
/-- Every MUST clause matches. -/
def allMust : List (Occur × BQuery L) → Bool
  | [] => true
  | (o, q) :: cs => (o ≠ .must || matches' q) && allMust cs
/-- Some clause of kind `k` matches. -/
def anyOf (k : Occur) : List (Occur × BQuery L) → Bool
  | [] => false
  | (o, q) :: cs => (o = k && matches' q) || anyOf k cs
end

theorem allMust_iff (cs : List (Occur × BQuery L)) :
    allMust D live d cs = true ↔ ∀ q, (Occur.must, q) ∈ cs → matches' D live d q = true := by
  induction cs with
  | nil => simp [allMust]
  | cons c cs ih =>
    obtain ⟨o, q⟩ := c
    rw [allMust, Bool.and_eq_true, ih]
    constructor
    · rintro ⟨h1, h2⟩ q' hq'
      rcases List.mem_cons.mp hq' with h3 | h3
      · cases h3; simpa using h1
      · exact h2 q' h3
    · intro h
      refine ⟨?_, fun q' hq' => h q' (by simp [hq'])⟩
      by_cases ho : o = .must
      · subst ho; simpa using h q (by simp)
      · simp [ho]

theorem anyOf_iff (k : Occur) (cs : List (Occur × BQuery L)) :
    anyOf D live d k cs = true ↔ ∃ q, (k, q) ∈ cs ∧ matches' D live d q = true := by
  induction cs with
  | nil => simp [anyOf]
  | cons c cs ih =>
    obtain ⟨o, q⟩ := c
    rw [anyOf, Bool.or_eq_true, ih]
    constructor
    · rintro (h | ⟨q', h1, h2⟩)
      · simp only [Bool.and_eq_true, decide_eq_true_eq] at h
        exact ⟨q, by simp [h.1], h.2⟩
      · exact ⟨q', by simp [h1], h2⟩
    · rintro ⟨q', h1, h2⟩
      rcases List.mem_cons.mp h1 with h3 | h3
      · cases h3; left; simp [h2]
      · exact .inr ⟨q', h3, h2⟩

/-- Boolean logic: every MUST clause matches, no MUST_NOT clause matches, and without a MUST
clause some SHOULD clause matches; a non-empty query of MUST_NOT clauses only matches every
live document they leave. -/
theorem matches_bool (cs : List (Occur × BQuery L)) :
    matches' D live d (.bool cs) = true ↔
      (∀ q, (Occur.must, q) ∈ cs → matches' D live d q = true) ∧
      (∀ q, (Occur.mustNot, q) ∈ cs → matches' D live d q = false) ∧
      ((∃ q, (Occur.must, q) ∈ cs) ∨ (∃ q, (Occur.should, q) ∈ cs ∧ matches' D live d q = true) ∨
        (cs ≠ [] ∧ (∀ c ∈ cs, c.1 = Occur.mustNot) ∧ live d = true)) := by
  rw [matches', Bool.and_eq_true, Bool.and_eq_true, Bool.or_eq_true, Bool.or_eq_true, allMust_iff, anyOf_iff]
  have h1 : (!anyOf D live d .mustNot cs) = true ↔ ∀ q, (Occur.mustNot, q) ∈ cs → matches' D live d q = false := by
    rw [Bool.not_eq_true', ← Bool.not_eq_true, anyOf_iff]
    constructor
    · intro h q hq
      cases hm : matches' D live d q with
      | false => rfl
      | true => exact absurd ⟨q, hq, hm⟩ h
    · rintro h ⟨q, hq, hm⟩
      rw [h q hq] at hm; cases hm
  have h2 : (cs.any (·.1 = .must)) = true ↔ ∃ q, (Occur.must, q) ∈ cs := by
    simp only [List.any_eq_true, decide_eq_true_eq]
    constructor
    · rintro ⟨c, hc, he⟩; exact ⟨c.2, by rw [← he]; exact hc⟩
    · rintro ⟨q, hq⟩; exact ⟨_, hq, rfl⟩
  have h3 : (!cs.isEmpty && cs.all (·.1 = .mustNot) && live d) = true ↔ (cs ≠ [] ∧ (∀ c ∈ cs, c.1 = Occur.mustNot) ∧ live d = true) := by
    simp [and_assoc]
  rw [h1, h2, h3, or_assoc, and_assoc]

end BQuery

/-! ### Where conjunctions occur -/

namespace BQuery

variable {L : Type}

mutual
/-- No boolean query in it has two or more MUST clauses, and every leaf is one of `ok`. -/
def conjFreeW (ok : L → Bool) : BQuery L → Bool
  | .leaf l => ok l
  | .all => true
  | .bool cs => (cs.filter (·.1 = .must)).length ≤ 1 && conjFreeLW ok cs
def conjFreeLW (ok : L → Bool) : List (Occur × BQuery L) → Bool
  | [] => true
  | (_, q) :: cs => conjFreeW ok q && conjFreeLW ok cs
end

mutual
/-- Boolean queries with two or more MUST clauses, and leaves other than those of `ok`, are not inside: MUST_NOT
clauses, MUST clauses of a query with two or more of them, SHOULD clauses of a query with a MUST clause. -/
def shallowW (ok : L → Bool) : BQuery L → Bool
  | .leaf _ => true
  | .all => true
  | .bool cs => shallowLW ok (2 ≤ (cs.filter (·.1 = .must)).length) (1 ≤ (cs.filter (·.1 = .must)).length) cs
def shallowLW (ok : L → Bool) (two one : Bool) : List (Occur × BQuery L) → Bool
  | [] => true
  | (.must, q) :: cs => (if two then conjFreeW ok q else shallowW ok q) && shallowLW ok two one cs
  | (.should, q) :: cs => (if one then conjFreeW ok q else shallowW ok q) && shallowLW ok two one cs
  | (.mustNot, q) :: cs => conjFreeW ok q && shallowLW ok two one cs
end

/-- No boolean query in it has two or more MUST clauses. -/
abbrev conjFree (q : BQuery L) : Bool := conjFreeW (fun _ => true) q

/-- Boolean queries with two or more MUST clauses are not inside: MUST_NOT clauses, MUST
clauses of a query with two or more of them, SHOULD clauses of a query with a MUST clause. -/
abbrev shallow (q : BQuery L) : Bool := shallowW (fun _ => true) q

end BQuery

/-! ### Scores -/

/-- Score arithmetic of a query: addition, multiplication and the coordination factor
`coord k n` for `k` of `n` clauses matching. -/
structure ScoreArith (S : Type) where
  zero : S
  add : S → S → S
  mul : S → S → S
  coord : Nat → Nat → S

namespace BQuery

variable {L S : Type} (A : ScoreArith S) (D : L → Int → Bool) (live : Int → Bool)
  (leafScore : L → Int → S) (allScore : S) (d : Int)

/-- Number of matching clauses of kind `k`. -/
def cntOf (k : Occur) : List (Occur × BQuery L) → Nat
  | [] => 0
  | (o, q) :: cs => if o = k ∧ q.matches' D live d = true then 1 + cntOf k cs else cntOf k cs

mutual
/-- The score of a matching document: coordination factor times the sum of the scores of the
matching clauses (MUST clauses first, then SHOULD; the order is irrelevant for a commutative
associative sum). With MUST_NOT clauses only it is that of the query for all documents. -/
def score : BQuery L → S
  | .leaf l => leafScore l d
  | .all => allScore
  | .bool cs =>
    if !cs.isEmpty && cs.all (·.1 = .mustNot) then allScore
    else A.mul (A.add (sumOf .must cs) (sumOf .should cs))
      (A.coord (cntOf D live d .must cs + cntOf D live d .should cs)
        ((cs.filter (·.1 = .must)).length + (cs.filter (·.1 = .should)).length))
/-- Sum of the scores of the matching clauses of kind `k`. -/
def sumOf (k : Occur) : List (Occur × BQuery L) → S
  | [] => A.zero
  | (o, q) :: cs => if o = k ∧ q.matches' D live d = true then A.add (score q) (sumOf k cs) else sumOf k cs
end

end BQuery
end Ferret.Spec
