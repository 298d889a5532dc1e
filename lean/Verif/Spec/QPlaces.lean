import Verif.Spec.QTree
import Verif.Spec.Strings

/-!
What the words of a query ask for: the places of a phrase, and queries for several fields.
-/

namespace Ferret.Spec
open Ferret Ferret.QP

/-- Some of several queries: those that are there, as alternatives. -/
def anyOf (qs : List (Option Qry)) : Option Qry :=
  match qs.filterMap id with
  | [] => none
  | q :: r => some (.bool ((q :: r).map (fun q => (Occ.should, q))) false)

/-- Distances turned into positions: each place stands so far behind the one before. -/
def absolute {α : Type} : Nat → List (Nat × α) → List (Nat × α)
  | _, [] => []
  | b, (d, x) :: r => (b + d, x) :: absolute (b + d) r

/-- The positions of the tokens of a text; the increment of the first counts for nothing. -/
def tokenPositions {α : Type} : List (α × Nat) → List (Nat × α)
  | [] => []
  | (t, _) :: ts => absolute 0 ((0, t) :: ts.map (fun p => (p.2, p.1)))

/-- Several words at a position, one by one. -/
def oneByOne {α : Type} (ps : List (Nat × List α)) : List (Nat × α) := ps.flatMap (fun p => p.2.map (fun t => (p.1, t)))

/-- The places of a phrase, each with the words allowed there; a gap allows none. -/
def placesRest : List (List QWord) → List QSpot → List (List QWord)
  | ps, [] => ps
  | ps, .next w :: ss => placesRest (ps ++ [[w]]) ss
  | ps, .gap :: ss => placesRest (ps ++ [[]]) ss
  | ps, .alt w :: ss => placesRest (ps.dropLast ++ ps.getLast?.toList.map (· ++ [w])) ss

def phrasePlaces (first : Option QWord) (spots : List QSpot) : List (List QWord) := placesRest [first.toList] spots

/-- What is left of the words of places, with the numbers of the places: `tok` gives the token of a word, if there
is one. -/
def placesKept {α : Type} (tok : QWord → Option α) : Nat → List (List QWord) → List (Nat × List α)
  | _, [] => []
  | i, p :: ps => (match p.filterMap tok with | [] => [] | ts => [(i, ts)]) ++ placesKept tok (i + 1) ps

/-- The places of which nothing is left, but for gaps and a last one. -/
def placesLost {α : Type} (tok : QWord → Option α) : List (List QWord) → Nat
  | [] => 0
  | p :: ps => (if p ≠ [] ∧ p.filterMap tok = [] ∧ ps.any (fun q => !q.isEmpty) then 1 else 0) + placesLost tok ps

/-- The written places of a phrase: those that are not gaps. -/
def writtenPlaces (first : Option QWord) (spots : List QSpot) : List (List QWord) :=
  (phrasePlaces first spots).filter (fun p => !p.isEmpty)

/-- The phrase is one place with several words. -/
def QLeaf.choice : QLeaf → Bool
  | .phrase first spots _ =>
    match writtenPlaces first spots with
    | [p] => decide (2 ≤ p.length)
    | _ => false
  | _ => false

/-- The number that digits stand for. -/
def decimal (ds : List Char) : Nat := ds.foldl (fun n c => n * 10 + (c.toNat - '0'.toNat)) 0

/-- The slop a phrase is given: none is 0. -/
def slopValue (slop : Option QWord) (n : Int) : Prop :=
  match slop with
  | none => n = 0
  | some w => ∃ sg ds, w = sg ++ ds ∧ ((sg = [] ∨ sg = ['+']) ∧ n = decimal ds ∨ sg = ['-'] ∧ n = - (decimal ds : Int)) ∧
      ds ≠ [] ∧ (∀ c ∈ ds, c.isDigit) ∧ ds.length ≤ 9

/-- The query is for terms, and finds those that match the pattern. -/
def finds (enc : Char → Byte) (f : Fld) (q : Qry) (t : List Byte) : Prop :=
  match q with
  | .all => True
  | .pre g x => g = f ∧ x.map enc <+: t
  | .wild g x => g = f ∧ Glob (x.map enc) t
  | _ => False

end Ferret.Spec
