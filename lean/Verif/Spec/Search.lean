import Verif.Model.Search
import Verif.Spec.Bag

/-! Specification vocabulary for searches: ranking of hits and pages. Shared with the model are
only the data type `Hit` and, to describe filter bit vectors, the bit vector's `get`. -/

namespace Ferret.Spec
open Ferret.Search (Hit)

variable {S : Type}

/-- `a` is ranked no later than `b`: greater score first, ties by ascending document. -/
def rankedBefore (lt : S → S → Bool) (a b : Hit S) : Bool :=
  lt b.score a.score || (!lt a.score b.score && decide (a.doc ≤ b.doc))

/-- All hits in rank order. -/
def ranking (lt : S → S → Bool) (hits : List (Hit S)) : List (Hit S) := hits.mergeSort (rankedBefore lt)

/-- The matches that count: those passing the filter bits and the post filter, with the post
filter's score. -/
def accepted (pass : Nat → Bool) (adjust : Nat → S → Option S) (hits : List (Hit S)) : List (Hit S) :=
  hits.filterMap (fun h => if pass h.doc then (adjust h.doc h.score).map (fun s => ⟨h.doc, s⟩) else none)

/-- The greatest score, at least `zero`. -/
def bestScore (lt : S → S → Bool) (zero : S) (hits : List (Hit S)) : S :=
  hits.foldl (fun m h => if lt m h.score then h.score else m) zero

/-- The filter bits (or their absence) select exactly the documents with `pass`. -/
def FilterBits (bits : Option BitVector.BV) (pass : Nat → Bool) : Prop :=
  match bits with
  | none => ∀ d, pass d = true
  | some bv => ∀ d : Nat, BitVector.get bv (d : Int) = .ok (pass d)

/-- The post filter (or its absence). -/
def adjustOf (pf : Option (Nat → S → Option S)) : Nat → S → Option S :=
  match pf with
  | none => fun _ s => some s
  | some f => f

end Ferret.Spec
