import Verif.Props.C36

/-! C38: the term scorer enumerates the postings. -/

namespace Ferret.Props
open Ferret.Scorer Ferret.Spec

variable {S : Type}

/-- **C38.** For every posting list and every interleaving of `next` and `skip_to`, with
document and score read after every successful call and calls going on after unsuccessful ones,
the term scorer visits exactly what the same walk through the posting list visits, and the
score is the weight of that posting's frequency times the norm of its document. -/
theorem c38_term_scorer (A : Arith S) (tfw : Nat → S) (norm : Int → S) (postings : List (Int × Nat)) (moves : List Move) :
    runAll (termOps A) ⟨Term.new postings, tfw, norm⟩ moves =
      .ok ((walk postings moves).map (Option.map fun e => (e.1, A.mul (tfw e.2) (norm e.1)))) := by
  have := runAll_term A tfw norm moves (Term.new postings)
  simpa [Term.new, Term.rest] using this

/-- 40 postings, so that the buffer of 32 is refilled; frequencies on both sides of the cache
size. -/
example : runAll (termOps natArith) ⟨Term.new ((List.range 40).map fun i => (((2 * i : Nat) : Int), i)), fun f => f, fun _ => 10⟩
    [.next, .skip 61, .next, .skip 70, .skip 3, .skip 100, .next] =
    .ok [some (0, 0), some (62, 310), some (64, 320), some (70, 350), some (72, 360), none, none] := by decide

#print axioms c38_term_scorer
end Ferret.Props
