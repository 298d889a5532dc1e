/-! Searchers over searchers: the searchers of indexes at the bottom, one after the other. -/

namespace Ferret.Spec

/-- Which of the searchers of indexes, given with their sizes, has a document, and under which number; `none` past the
last document. -/
def inWhich {L : Type} (size : L → Nat) : List L → Nat → Option (L × Nat)
  | [], _ => none
  | l :: ls, d => if d < size l then some (l, d) else inWhich size ls (d - size l)

/-- What all of them report, in order, numbered through from `start` on, with the one that reports it. -/
def inOrder {L S : Type} (size : L → Nat) (hits : L → List (Nat × S)) : Nat → List L → List (L × Nat × S)
  | _, [] => []
  | start, l :: ls => (hits l).map (fun h => (l, start + h.1, h.2)) ++ inOrder size hits (start + size l) ls

end Ferret.Spec
