import Verif.Model.Readers
import Verif.Spec.SeaTree

/-!
Searchers over searchers (MultiSearcher, c/src/search.c 1443–1826), which may be searchers over searchers
again. Searchers of one index (IndexSearcher) are at the bottom; what they give is taken as it is: `call a d` is what
they answer about document `d` (the document, the document loaded lazily, its term vector of a field, the
explanation of a weight; which of them is `a`), `hits w` what search_each_w reports for a weight with its filters, `freq t`
how many documents have a term. A reader's max_doc does not change while it is open. What msea_search_w
does is in C33, C34, C52 and C91.
-/

namespace Ferret.SeaTree
open Ferret Ferret.Spec

/-- struct IndexSearcher and its functions, search.c 998–1018, 1119–1168, 1229–1252. -/
structure Leaf (A B W S T : Type) where
  name : Nat
  size : Nat
  call : A → Int → Res B
  hits : W → List (Nat × S)
  freq : T → Nat

/-- struct Searcher: one index, or several searchers. -/
inductive Sea (A B W S T : Type) where
  | leaf (l : Leaf A B W S T)
  | multi (subs : List (Sea A B W S T))

variable {A B W S T : Type}

mutual
/-- isea_max_doc, search.c 1014–1018; msea_max_doc, 1499–1502, which is the sum made by msea_new, 1834–1838. -/
def maxDoc : Sea A B W S T → Nat
  | .leaf l => l.size
  | .multi ss => (maxDocs ss).sum
/-- The same of several, in order, search.c 1834–1837. -/
def maxDocs : List (Sea A B W S T) → List Nat
  | [] => []
  | s :: ss => maxDoc s :: maxDocs ss
end

/-- msea_new, search.c 1833–1838: `starts`, one more than there are searchers. -/
def starts (ss : List (Sea A B W S T)) : List Nat := Rdr.startsFrom 0 (maxDocs ss)

/-- msea_get_searcher_index, search.c 1444–1468: word for word the search of mr_reader_index_i (index.c 4696–4720); then
`searchers[i]` and `doc_num - starts[i]`, as in msea_get_doc, 1486–1488. -/
def find (ss : List (Sea A B W S T)) (d : Int) : Res (Nat × Int) := Rdr.locate (starts ss) (maxDocs ss).length d

mutual
/-- msea_get_doc, search.c 1483–1489; msea_get_lazy_doc, 1491–1497; msea_explain and msea_explain_w, 1779–1797 (the weight is
made before, by the searcher asked); msea_get_term_vector, 1799–1806; and those of IndexSearcher. -/
def ask : Sea A B W S T → A → Int → Res B
  | .leaf l, a, d => l.call a d
  | .multi ss, a, d => find ss d >>= fun x => askAt ss x.1 a x.2
/-- `s = searchers[i]; s->…(s, …)`, search.c 1487–1488. -/
def askAt : List (Sea A B W S T) → Nat → A → Int → Res B
  | [], _, _, _ => .ub
  | s :: _, 0, a, d => ask s a d
  | _ :: ss, i + 1, a, d => askAt ss i a d
end

mutual
/-- isea_doc_freq, search.c 997–1000; msea_doc_freq, 1470–1481. -/
def docFreq : Sea A B W S T → T → Nat
  | .leaf l, t => l.freq t
  | .multi ss, t => docFreqs ss t 0
/-- The loop, search.c 1475–1478. -/
def docFreqs : List (Sea A B W S T) → T → Nat → Nat
  | [], _, n => n
  | s :: ss, t, n => docFreqs ss t (n + docFreq s t)
end

mutual
/-- search_each_w with the function to be called, which is given a searcher, a document and a score: isea_search_each_w,
search.c 1162; msea_search_each_w, 1563–1581. -/
def each {E : Type} : Sea A B W S T → W → (Leaf A B W S T → Nat → S → List E) → List E
  | .leaf l, w, fn => (l.hits w).flatMap fun h => fn l h.1 h.2
  | .multi ss, w, fn => eachOf ss w 0 fn
/-- The loop, search.c 1574–1580, with msea_search_each_i, 1556–1561: the searcher given is passed on, the start is added to the
document. -/
def eachOf {E : Type} : List (Sea A B W S T) → W → Nat → (Leaf A B W S T → Nat → S → List E) → List E
  | [], _, _, _ => []
  | s :: ss, w, start, fn => each s w (fun l d sc => fn l (d + start) sc) ++ eachOf ss w (start + maxDoc s) fn
end

mutual
/-- isea_search_unscored_w (what it gives is C35); msea_search_unscored_w, search.c 1593–1626. -/
def scan : Sea A B W S T → W → Nat → Nat → List Nat
  | .leaf l, w, limit, off => (((l.hits w).map (·.1)).filter fun d => decide (off ≤ d)).take limit
  | .multi ss, w, limit, off => scanOf ss w 0 limit off
/-- The loop, search.c 1602–1624; `limit` is `limit - count`. -/
def scanOf : List (Sea A B W S T) → W → Nat → Nat → Nat → List Nat
  | [], _, _, _, _ => []
  | s :: ss, w, start, limit, off =>
    if limit = 0 then []
    else if off < start + maxDoc s then
      let r := (scan s w limit (if off > start then off - start else 0)).map (· + start)
      r ++ scanOf ss w (start + maxDoc s) (limit - r.length) off
    else scanOf ss w (start + maxDoc s) limit off
end

mutual
/-- The searchers of one index below a searcher, from left to right (not in the code). -/
def leaves : Sea A B W S T → List (Leaf A B W S T)
  | .leaf l => [l]
  | .multi ss => leavesOf ss
/-- The same of several (not in the code). -/
def leavesOf : List (Sea A B W S T) → List (Leaf A B W S T)
  | [] => []
  | s :: ss => leaves s ++ leavesOf ss
end

mutual
/-- Every searcher over searchers has one (not in the code). -/
def full : Sea A B W S T → Bool
  | .leaf _ => true
  | .multi ss => !ss.isEmpty && fullAll ss
/-- The same of several (not in the code). -/
def fullAll : List (Sea A B W S T) → Bool
  | [] => true
  | s :: ss => full s && fullAll ss
end

end Ferret.SeaTree
