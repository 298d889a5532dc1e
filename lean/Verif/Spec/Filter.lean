import Verif.Model.FilterQuery

/-! What filtered searches of a reader should report as documents are deleted and undeleted. -/

namespace Ferret.Spec
open Ferret.Scorer

variable {S L : Type}

/-- Document `d` is not deleted and matches the query. -/
def nowMatches (ix : TermIx S L) (del : Int → Bool) (q : BQuery L) (d : Int) : Bool :=
  q.matches' (fun l d => ix.has l d && !del d) (fun d => decide (0 ≤ d) && decide (d < ix.maxDoc) && !del d) d

/-- The query of a filtered search. -/
def asked : FEvent L → Option (BQuery L)
  | .search q => some q
  | .filtered q => some q
  | .delete _ => none
  | .undeleteAll => none

/-- The deleted documents after some events. -/
def deletedAfter (del : Int → Bool) : List (FEvent L) → Int → Bool
  | [] => del
  | .delete n :: evs => deletedAfter (fun d => decide (d = n) || del d) evs
  | .undeleteAll :: evs => deletedAfter (fun _ => false) evs
  | _ :: evs => deletedAfter del evs

/-- Nothing is undeleted after the first filtered search. -/
def noneBack : List (FEvent L) → Bool
  | [] => true
  | ev :: evs => if (asked ev).isSome then evs.all (fun e => match e with | .undeleteAll => false | _ => true) else noneBack evs

end Ferret.Spec
