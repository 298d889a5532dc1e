import Verif.Lemmas.RefWeight

/-!
C92: no query, clause, filter or weight is used after it is freed, and all are freed when the program gives them up.

The code departs from the English property: rewriting copies the pointer to the similarity of a boolean query without coordination, so that it is freed twice;
a query that is added to a full boolean query is never freed, nor is what a search had made when it is refused; and searching a query with prohibited clauses
only adds a clause to it.
-/

namespace Ferret.Props
open Ferret.Rc
open Ferret.Spec (Occur)

/-- **Nothing is used after it is freed.** A program makes queries and filters, puts them into each other, takes and gives up references to them, searches with them and gives
up the weights, in any order and any number of times. If none of its boolean queries is without coordination, then nothing that was freed is read, written or freed again,
exceptions included, and whatever the program holds is alive. Missing: boolean queries without coordination (false, see `c92_double_free`). -/
theorem c92_no_use_after_free_partial (n : Nat) (ops : List Op) (hcoord : ∀ max rank, Op.bool true max rank ∉ ops) :
    Prog.run n .start ops ≠ none ∧
      ∀ p, Prog.run n .start ops = some (some p) → ∀ r ∈ p.held, ∃ o, p.heap[r]? = some o ∧ 0 < o.cnt := by
  obtain ⟨r, hr, hp⟩ := run_ok n ops .start start_fine (by
    intro op hop
    cases op
    case bool off m rk =>
      cases off
      · rfl
      · exact absurd hop (hcoord m rk)
    all_goals rfl)
  refine ⟨by rw [hr]; simp, ?_⟩
  intro p he r hm
  rw [hr] at he
  obtain ⟨ex, hs, _⟩ := (hp p (by simpa using he)).st
  exact live_held hs hm

/-- **The counts are right.** Without exceptions, the count of everything is how often the program holds it and how often it is owned. -/
theorem c92_counts_partial (n : Nat) (ops : List Op) (hcoord : ∀ max rank, Op.bool true max rank ∉ ops) (p : Prog) (hrun : Prog.run n .start ops = some (some p))
    (hfail : p.failed = false) (r : Nat) (o : Obj) (ho : p.heap[r]? = some o) :
    o.cnt = p.held.count r + (p.heap.map fun x => x.kids.count r + x.aux.toList.count r).sum := by
  obtain ⟨r', hr, hp⟩ := run_ok n ops .start start_fine (by
    intro op hop
    cases op
    case bool off m rk =>
      cases off
      · rfl
      · exact absurd hop (hcoord m rk)
    all_goals rfl)
  rw [hr] at hrun
  obtain ⟨ex, hs, hf⟩ := (hp p (by simpa using hrun)).st
  rw [hf hfail, List.nil_append] at hs
  have := hs.count r
  rw [cntOf_some ho] at this
  rw [this]
  congr 1
  unfold allRefs
  generalize p.heap = l
  induction l with
  | nil => rfl
  | cons a l ih =>
    rw [List.flatMap_cons, List.count_append, List.map_cons, List.sum_cons, ← ih]
    simp only [Obj.refs, List.count_append]

/-- **Everything is freed.** When the program has given up all that it held, and there was no exception, nothing is left. Missing: exceptions (false, see `c92_leak_full`,
`c92_leak_refused`) and boolean queries without coordination. -/
theorem c92_all_freed_partial (n : Nat) (ops : List Op) (hcoord : ∀ max rank, Op.bool true max rank ∉ ops) (p : Prog) (hrun : Prog.run n .start ops = some (some p))
    (hfail : p.failed = false) (hheld : p.held = []) : ∀ o ∈ p.heap, o.cnt = 0 := by
  obtain ⟨r', hr, hp⟩ := run_ok n ops .start start_fine (by
    intro op hop
    cases op
    case bool off m rk =>
      cases off
      · rfl
      · exact absurd hop (hcoord m rk)
    all_goals rfl)
  rw [hr] at hrun
  obtain ⟨ex, hs, hf⟩ := (hp p (by simpa using hrun)).st
  rw [hf hfail, hheld] at hs
  exact no_leak hs

/-- What is left at the end: what the program holds, whether there was an exception, and the counts. -/
def left (r : Option (Option Prog)) : Option (Option (List Nat × Bool × List Nat)) := r.map (Option.map fun p => (p.held, p.failed, p.heap.map Obj.cnt))

/-- A pattern, a word and a span query of a pattern in a boolean query, searched; a range with a filter, searched twice; and all given up. -/
def sample : List Op :=
  [.bool false 9 5, .pattern, .leaf, .addNr 0 1 .should, .add 0 2 .should, .span 3, .pattern, .spanAdd 5 6, .addNr 0 5 .must, .deref 2, .deref 6, .weigh 0, .deref 15,
    .filter, .range, .filtered 17 16 6, .weigh 18, .deref 22, .weigh 18, .deref 26, .deref 18, .deref 0]

example : (∀ max rank, Op.bool true max rank ∉ sample) ∧ left (Prog.run 9 .start sample) = some (some ([], false, List.replicate 27 0)) := by
  refine ⟨?_, by decide +kernel⟩
  intro max rank h
  simp [sample] at h

/-- The same before the last four steps: the query of the range is owned by the weight as well. -/
example : left (Prog.run 9 .start (sample.take 17)) = some (some ([22, 18, 0], false,
    [1, 1, 1, 1, 1, 1, 0, 1, 0, 0, 0, 1, 0, 0, 0, 0, 1, 1, 2, 1, 1, 1, 1])) := by decide +kernel

/-! ### Similarities are freed twice -/

/-- A boolean query without coordination is searched with two words; a pattern is added; it is searched again. -/
def twice : List Op :=
  [.bool true 9 5, .leaf, .leaf, .addNr 0 1 .should, .addNr 0 2 .should, .weigh 0, .deref 8, .pattern, .addNr 0 9 .should, .weigh 0, .deref 17]

/-- **Freed twice.** The first search gives the query a similarity of its own. The second one rewrites the query, and the copy has the same similarity, which is freed with
the copy when the search ends. Then the query can neither be given up nor searched. -/
theorem c92_double_free :
    left (Prog.run 9 .start twice) = some (some ([0], false, [1, 1, 1, 1, 1, 0, 0, 0, 0, 1, 1, 0, 0, 0, 0, 0, 0, 0])) ∧
    Prog.run 9 .start (twice ++ [.deref 0]) = none ∧ Prog.run 9 .start (twice ++ [.weigh 0]) = none := by
  refine ⟨by decide +kernel, ?_, ?_⟩
  · have : (Prog.run 9 .start (twice ++ [.deref 0])).isNone = true := by decide +kernel
    simpa using this
  · have : (Prog.run 9 .start (twice ++ [.weigh 0])).isNone = true := by decide +kernel
    simpa using this

/-- With coordination the same is safe. -/
example : left (Prog.run 9 .start [.bool false 9 5, .leaf, .leaf, .addNr 0 1 .should, .addNr 0 2 .should, .weigh 0, .deref 7, .pattern, .addNr 0 8 .should, .weigh 0,
    .deref 16, .deref 0]) = some (some ([], false, List.replicate 17 0)) := by decide +kernel

/-! ### What exceptions leave -/

/-- **A full query.** A second query is added to a boolean query for one clause. That is refused, and the second query, given up by the program, is never freed. -/
theorem c92_leak_full :
    left (Prog.run 9 .start [.bool false 1 5, .leaf, .leaf, .addNr 0 1 .should, .add 0 2 .should, .deref 0, .deref 2]) = some (some ([], true, [0, 0, 1, 0])) := by
  decide +kernel

/-- **A refused search.** A full query of a prohibited clause cannot be searched: the clause that finds everything does not fit. The query, which the program gives up, is never freed. -/
theorem c92_leak_refused :
    left (Prog.run 9 .start [.bool false 1 5, .leaf, .addNr 0 1 .mustNot, .weigh 0, .deref 0]) = some (some ([], true, [1, 1, 1, 1])) := by decide +kernel

/-- The clauses of a query. -/
def clauses (r : Option (Option Prog)) (q : Nat) : Option Nat :=
  match r with
  | some (some p) => (p.heap[q]?).map fun o => o.kids.length
  | _ => none

/-- **Searching changes the query.** A query of a prohibited clause has two clauses after it was searched. -/
theorem c92_search_adds_clause :
    clauses (Prog.run 9 .start [.bool false 9 5, .leaf, .addNr 0 1 .mustNot]) 0 = some 1 ∧
    clauses (Prog.run 9 .start [.bool false 9 5, .leaf, .addNr 0 1 .mustNot, .weigh 0, .deref 7]) 0 = some 2 := by
  constructor <;> decide +kernel

#print axioms c92_no_use_after_free_partial
#print axioms c92_counts_partial
#print axioms c92_all_freed_partial
#print axioms c92_double_free
#print axioms c92_leak_full
#print axioms c92_leak_refused
#print axioms c92_search_adds_clause
end Ferret.Props
