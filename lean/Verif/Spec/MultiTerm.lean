/-!
What a query for many weighted terms asks for, independent of the code.
-/

namespace Ferret.Spec

variable {T S : Type}

/-- The frequencies in document `d` of the terms of a query, each with the weight of its term; `docs` gives the
documents of a term with its frequency in each. -/
def freqsIn (docs : T → List (Int × Nat)) (q : List (T × S)) (d : Int) : List (Nat × S) :=
  q.flatMap fun x => ((docs x.1).filter fun e => decide (e.1 = d)).map fun e => (e.2, x.2)

/-- Document `d` has at least one of the terms. -/
def HasOne (docs : T → List (Int × Nat)) (q : List (T × S)) (d : Int) : Prop := ∃ x ∈ q, ∃ n, (d, n) ∈ docs x.1

/-- The sum of the weighted frequencies. -/
def weighted (zero : S) (add mul : S → S → S) (tf : Nat → S) : List (Nat × S) → S
  | [] => zero
  | x :: l => add (mul (tf x.1) x.2) (weighted zero add mul tf l)

end Ferret.Spec
