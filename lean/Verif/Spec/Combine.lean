import Verif.Model.Combine

/-!
What a query finds in one of several searchers (C91).
-/

namespace Ferret.Spec
open Ferret Ferret.Comb

/-- A searcher: the documents that each leaf finds, those that exist, and the terms it has for each pattern. -/
structure Sub (L K : Type) where
  has : L → Int → Bool
  live : Int → Bool
  expand : K → List L

variable {L K : Type}

mutual
/-- The query as boolean logic has it. -/
def plainQ : CQ L K → BQuery (CLeaf L K)
  | .leaf l => .leaf l
  | .all => .all
  | .bool _ cs => .bool (plainL cs)
def plainL : List (Occur × CQ L K) → List (Occur × BQuery (CLeaf L K))
  | [] => []
  | (o, q) :: cs => (o, plainQ q) :: plainL cs
end

/-- The documents that a leaf finds: those of any of its terms. -/
def leafFinds (has : L → Int → Bool) (expand : K → List L) : CLeaf L K → Int → Bool
  | .own l, d => has l d
  | .many ls, d => ls.any fun l => has l d
  | .pattern k, d => (expand k).any fun l => has l d

/-- What a query finds in a searcher. -/
def Sub.finds (s : Sub L K) (q : CQ L K) (d : Int) : Bool := (plainQ q).matches' (leafFinds s.has s.expand) s.live d

mutual
/-- Patterns are only where more terms find more documents: under no clause that prohibits, or under two, or four. -/
def onlyWidens (pos : Bool) : CQ L K → Bool
  | .leaf (.pattern _) => pos
  | .leaf _ => true
  | .all => true
  | .bool _ cs => onlyWidensL pos cs
def onlyWidensL (pos : Bool) : List (Occur × CQ L K) → Bool
  | [] => true
  | (o, q) :: cs => onlyWidens (if o = .mustNot then !pos else pos) q && onlyWidensL pos cs
end

mutual
/-- How deep boolean queries are nested. -/
def nesting : CQ L K → Nat
  | .leaf _ => 0
  | .all => 0
  | .bool _ cs => nestingL cs + 1
def nestingL : List (Occur × CQ L K) → Nat
  | [] => 0
  | (_, q) :: cs => max (nesting q) (nestingL cs)
end

end Ferret.Spec
