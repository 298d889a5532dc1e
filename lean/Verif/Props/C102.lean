import Verif.Lemmas.SeaTree

/-!
C102: a searcher over searchers, nested to any depth, numbers the documents of all its indexes through, and what it
reports under a number is what it gives when asked for that number.
-/

namespace Ferret.Props
open Ferret Ferret.Spec Ferret.SeaTree

variable {A B W S T : Type}

/-- Asked about a document (its fields, its term vectors, the explanation of a query), the searcher answers what the index
that has the document answers, under the document's number there. -/
theorem c102_asked_of_its_index (s : Sea A B W S T) (a : A) (d : Nat) (h : d < maxDoc s) :
    ∃ l o, inWhich (·.size) (leaves s) d = some (l, o) ∧ ask s a d = l.call a o := ask_spec s a d h

/-- The number of documents and the number of documents with a term are those of all the indexes together. -/
theorem c102_totals (s : Sea A B W S T) (t : T) :
    maxDoc s = ((leaves s).map (·.size)).sum ∧ docFreq s t = ((leaves s).map (·.freq t)).sum := ⟨maxDoc_leaves s, docFreq_leaves s t⟩

/-- Everything every index reports is reported once, in the order of the indexes, with its score and its number; and the
searcher, asked about that number, answers what the index answers about what it reported. -/
theorem c102_reported_can_be_asked_for (s : Sea A B W S T) (w : W) (hin : ∀ l ∈ leaves s, ∀ h ∈ l.hits w, h.1 < l.size) :
    each s w (fun l d sc => [(l, d, sc)]) = inOrder (·.size) (·.hits w) 0 (leaves s) ∧
    ∀ l d sc, (l, d, sc) ∈ each s w (fun l d sc => [(l, d, sc)]) → d < maxDoc s ∧ ∃ o, (o, sc) ∈ l.hits w ∧ ∀ a, ask s a d = l.call a (o : Nat) := by
  have e : each s w (fun l d sc => [(l, d, sc)]) = inOrder (·.size) (·.hits w) 0 (leaves s) := by
    rw [each_spec]
    induction inOrder (fun l : Leaf A B W S T => l.size) (fun l => l.hits w) 0 (leaves s) with
    | nil => rfl
    | cons x xs ih => rw [List.flatMap_cons, ih]; rfl
  refine ⟨e, ?_⟩
  intro l d sc hx
  rw [e] at hx
  obtain ⟨-, h2, o, h3, h4⟩ := inOrder_inWhich _ _ _ 0 hin _ hx
  dsimp only at h2 h3 h4
  rw [Nat.zero_add, ← maxDoc_leaves] at h2
  refine ⟨h2, o, h3, fun a => ?_⟩
  obtain ⟨l', o', g1, g2⟩ := ask_spec s a d h2
  rw [Nat.sub_zero, g1] at h4
  cases h4
  exact g2

/-- Looking for at most `limit` documents from a number on gives the first ones of those reported that are not before it. -/
theorem c102_scan (s : Sea A B W S T) (w : W) (limit off : Nat) (hin : ∀ l ∈ leaves s, ∀ h ∈ l.hits w, h.1 < l.size) :
    scan s w limit off = (((inOrder (·.size) (·.hits w) 0 (leaves s)).map (·.2.1)).filter fun d => decide (off ≤ d)).take limit :=
  scan_spec s w limit off hin

/-- Asked about a number past the last document, it asks one of its indexes about a number past its last document (what the
index answers is not said here), provided that every searcher over searchers has one. -/
theorem c102_past_the_end_partial (s : Sea A B W S T) (a : A) (d : Nat) (hf : full s = true) (h : maxDoc s ≤ d) :
    ∃ l ∈ leaves s, ∃ o : Nat, l.size ≤ o ∧ ask s a d = l.call a o := ask_past s a d hf h

/-- A negative number is not refused: whatever the searchers are, an element before the first of the array of searchers is
called. -/
theorem c102_negative_undefined (ss : List (Sea A B W S T)) (a : A) (d : Int) (h : d < 0) : ask (.multi ss) a d = .ub := by
  rw [ask, find_negative ss d h]; rfl

/-- Over no searchers, every number does. -/
theorem c102_no_searchers_undefined (a : A) (d : Int) : ask (.multi ([] : List (Sea A B W S T))) a d = .ub := by
  rw [ask, find_none d]; rfl

/-- An index with documents named `n`, `n + 1`, …, all found: asking past its end raises. -/
def c102Index (n size : Nat) : Leaf Unit Nat Unit Nat Unit :=
  ⟨n, size, fun _ d => if d < 0 then .ub else if d.toNat < size then .ok (n + d.toNat) else .raise .eof, fun _ => (List.range size).map fun d => (d, n), fun _ => size⟩

/-- Searchers over searchers, with an empty index in the middle. -/
def c102Tree : Sea Unit Nat Unit Nat Unit :=
  .multi [.leaf (c102Index 100 2), .multi [.leaf (c102Index 200 0), .leaf (c102Index 300 1)], .multi [.multi [.leaf (c102Index 400 2)]]]

example : maxDoc c102Tree = 5 ∧ full c102Tree = true ∧ ask c102Tree () 0 = .ok 100 ∧ ask c102Tree () 2 = .ok 300 ∧ ask c102Tree () 4 = .ok 401 ∧
    ask c102Tree () 5 = .raise .eof := by decide +kernel
example : each c102Tree () (fun l d sc => [(l.name, d, sc)]) = [(100, 0, 100), (100, 1, 100), (300, 2, 300), (400, 3, 400), (400, 4, 400)] ∧
    scan c102Tree () 2 1 = [1, 2] ∧ scan c102Tree () 9 3 = [3, 4] ∧ docFreq c102Tree () = 5 := by decide +kernel
example : ∀ l ∈ leaves c102Tree, ∀ h ∈ l.hits (), h.1 < l.size := by
  have e : leaves c102Tree = [c102Index 100 2, c102Index 200 0, c102Index 300 1, c102Index 400 2] := by
    simp [c102Tree, leaves, leavesOf]
  rw [e]
  have g : ∀ n size : Nat, ∀ h ∈ (c102Index n size).hits (), h.1 < (c102Index n size).size := by
    intro n size h hh
    obtain ⟨x, h1, rfl⟩ := List.mem_map.1 hh
    exact List.mem_range.1 h1
  intro l hl
  simp only [List.mem_cons, List.not_mem_nil, or_false] at hl
  rcases hl with rfl | rfl | rfl | rfl <;> exact g _ _

/-- The function called for a document is given the document's number in the whole searcher but the searcher of its index:
asking that searcher for the number raises, or gives another document. -/
theorem c102_function_given_other_searcher :
    each c102Tree () (fun l d _ => [(ask c102Tree () d, l.call () d)]) =
      [(.ok 100, .ok 100), (.ok 101, .ok 101), (.ok 300, .raise .eof), (.ok 400, .raise .eof), (.ok 401, .raise .eof)] ∧
    each (Sea.multi [.leaf (c102Index 100 1), .leaf (c102Index 200 2)]) () (fun l d _ => [(ask (Sea.multi [.leaf (c102Index 100 1), .leaf (c102Index 200 2)]) () d, l.call () d)]) =
      [(.ok 100, .ok 100), (.ok 200, .ok 201), (.ok 201, .raise .eof)] := by decide +kernel

#print axioms c102_asked_of_its_index
#print axioms c102_totals
#print axioms c102_reported_can_be_asked_for
#print axioms c102_scan
#print axioms c102_past_the_end_partial
#print axioms c102_negative_undefined
#print axioms c102_no_searchers_undefined
#print axioms c102_function_given_other_searcher
end Ferret.Props
