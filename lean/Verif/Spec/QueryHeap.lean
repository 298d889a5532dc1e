import Verif.Model.QueryHeap

/-!
Queries as a user makes them, what they ask for, and the ones for which that can be relied on (c83).
-/

namespace Ferret.Spec
open Ferret.Scorer Ferret.QHeap

variable {S L : Type}

/-- A query as it is made: leaves, leaves that are expanded, and boolean queries, with their boosts. -/
inductive NQ (S L : Type) where
  | leaf (k : Kind L) (boost : S)
  | expands (l : L) (boost : S)
  | bool (boost : S) (cs : List (Occur × NQ S L))

namespace NQ

def boost : NQ S L → S
  | .leaf _ b => b
  | .expands _ b => b
  | .bool b _ => b

/-- A query of one clause that is not prohibited: it asks for what that clause asks for. -/
def oneClause : NQ S L → Bool
  | .bool _ cs => (single cs).isSome
  | _ => false

end NQ

/-- A boost of `b` put on a query. -/
def boostAsk (X : XArith S) (b : S) : EQuery S L → EQuery S L
  | .leaf k b' => .leaf k (X.mul b' b)
  | .bool b' cs => .bool (X.mul b' b) cs

/-- A boolean query of these clauses: the one clause with the boost, if there is one only; if there are none but prohibited
clauses, all documents without those. -/
def boolAsk (X : XArith S) (b : S) (cs : List (Occur × EQuery S L)) : EQuery S L :=
  match single cs with
  | some q => boostAsk X b q
  | none => if !cs.isEmpty && cs.all (·.1 = .mustNot) then .bool b (cs ++ [(.must, .leaf .all X.one)]) else .bool b cs

mutual
/-- What a query asks for. -/
def NQ.asked (X : XArith S) (expand : L → S → Kind L × S) : NQ S L → EQuery S L
  | .leaf k b => .leaf k b
  | .expands l b => .leaf (expand l b).1 (expand l b).2
  | .bool b cs => boolAsk X b (NQ.askedL X expand cs)
def NQ.askedL (X : XArith S) (expand : L → S → Kind L × S) : List (Occur × NQ S L) → List (Occur × EQuery S L)
  | [] => []
  | (o, q) :: cs => (o, NQ.asked X expand q) :: NQ.askedL X expand cs
end

mutual
/-- Making a query: its clauses, then itself; every object a new one. -/
def NQ.make (X : XArith S) (h : Heap S L) : NQ S L → Heap S L × Nat
  | .leaf k b => (h ++ [.leaf k b], h.length)
  | .expands l b => (h ++ [.expands l b], h.length)
  | .bool b cs =>
    let r := NQ.makeL X h cs
    (r.1 ++ [.bool b X.zero r.2], r.1.length)
def NQ.makeL (X : XArith S) (h : Heap S L) : List (Occur × NQ S L) → Heap S L × List (Occur × Nat)
  | [] => (h, [])
  | (o, q) :: cs =>
    let r := NQ.make X h q
    let r' := NQ.makeL X r.1 cs
    (r'.1, (o, r.2) :: r'.2)
end

/-- Making several queries. -/
def NQ.makeAll (X : XArith S) (h : Heap S L) : List (NQ S L) → Heap S L × List Nat
  | [] => (h, [])
  | q :: qs =>
    let r := NQ.make X h q
    let r' := NQ.makeAll X r.1 qs
    (r'.1, r.2 :: r'.2)

mutual
/-- The query is not rewritten: nothing in it is expanded, nor is a boolean query of one clause. -/
def NQ.keeps : NQ S L → Bool
  | .leaf _ _ => true
  | .expands _ _ => false
  | .bool _ cs => (single (NQ.keepsL cs)).isNone && (NQ.keepsL cs).all (·.2)
def NQ.keepsL : List (Occur × NQ S L) → List (Occur × Bool)
  | [] => []
  | (o, q) :: cs => (o, NQ.keeps q) :: NQ.keepsL cs
end

mutual
/-- Of boolean queries of one clause inside each other, the innermost has a boost, or has a clause that is rewritten. -/
def NQ.resets (X : XArith S) : NQ S L → Bool
  | .leaf _ _ => true
  | .expands _ _ => true
  | .bool b cs => match single (NQ.resetsL X b cs) with | some r => r | none => true
def NQ.resetsL (X : XArith S) (b : S) : List (Occur × NQ S L) → List (Occur × Bool)
  | [] => []
  | (o, q) :: cs => (o, if q.oneClause then NQ.resets X q else !X.isOne b || !q.keeps) :: NQ.resetsL X b cs
end

mutual
/-- No boolean query of one clause has a boost while the innermost of those inside it has none. -/
def NQ.steady (X : XArith S) : NQ S L → Bool
  | .leaf _ _ => true
  | .expands _ _ => true
  | .bool b cs => (X.isOne b || NQ.resets X (.bool b cs)) && NQ.steadyL X cs
def NQ.steadyL (X : XArith S) : List (Occur × NQ S L) → Bool
  | [] => true
  | (_, q) :: cs => NQ.steady X q && NQ.steadyL X cs
end

mutual
/-- All boosts are positive. -/
def NQ.positive (X : XArith S) : NQ S L → Bool
  | .leaf _ b => X.pos b
  | .expands _ b => X.pos b
  | .bool b cs => X.pos b && NQ.positiveL X cs
def NQ.positiveL (X : XArith S) : List (Occur × NQ S L) → Bool
  | [] => true
  | (_, q) :: cs => NQ.positive X q && NQ.positiveL X cs
end

mutual
/-- How deep a query is nested. -/
def NQ.height : NQ S L → Nat
  | .leaf _ _ => 1
  | .expands _ _ => 1
  | .bool _ cs => NQ.heightL cs + 1
def NQ.heightL : List (Occur × NQ S L) → Nat
  | [] => 0
  | (_, q) :: cs => Nat.max (NQ.height q) (NQ.heightL cs)
end

end Ferret.Spec
