import Verif.Model.Explain

/-!
When arithmetic is exact, and which queries and indexes c82 speaks of.
-/

namespace Ferret.Spec
open Ferret.Scorer

variable {S L : Type}

/-- Numbers that are added and multiplied without rounding, `pos` telling those above zero. -/
structure Exact (X : XArith S) : Prop where
  add_comm : ∀ a b, X.add a b = X.add b a
  add_assoc : ∀ a b c, X.add (X.add a b) c = X.add a (X.add b c)
  zero_add : ∀ a, X.add X.zero a = a
  mul_comm : ∀ a b, X.mul a b = X.mul b a
  mul_assoc : ∀ a b c, X.mul (X.mul a b) c = X.mul a (X.mul b c)
  zero_mul : ∀ a, X.mul X.zero a = X.zero
  one_mul : ∀ a, X.mul X.one a = a
  isOne : ∀ a, X.isOne a = true ↔ a = X.one
  pos_zero : X.pos X.zero = false
  pos_one : X.pos X.one = true
  pos_add : ∀ a b, X.pos a = true → X.pos b = true → X.pos (X.add a b) = true
  pos_mul : ∀ a b, X.pos a = true → X.pos b = true → X.pos (X.mul a b) = true
  /-- a document in which a term does not occur has no term frequency factor, one in which it does has -/
  tf_zero : X.tf 0 = X.zero
  tf_pos : ∀ n, 0 < n → X.pos (X.tf n) = true
  norm_pos : ∀ a, X.pos a = true → X.pos (X.queryNorm a) = true
  coord_pos : ∀ k n, 0 < k → k ≤ n → X.pos (X.coord k n) = true
  /-- inside the scorer of a disjunction all of its matches count as matched -/
  dcoord : ∀ a n, 1 ≤ n → X.mul a (X.dcoord n n) = a

/-- An index of positive norms and idfs, with postings in order, of documents it holds, in which the term occurs. -/
structure EIx.Fine (X : XArith S) (ix : EIx S L) : Prop where
  sorted : ∀ l, (ix.postings l).Pairwise (fun a b => a.1 < b.1)
  held : ∀ l, ∀ e ∈ ix.postings l, 0 ≤ e.1 ∧ e.1 < ix.maxDoc ∧ ix.deleted e.1 = false
  occurs : ∀ l, ∀ e ∈ ix.postings l, 0 < e.2
  idf : ∀ l, X.pos (ix.idf l) = true
  norm : ∀ l d, X.pos (ix.norm l d) = true

/-- Terms and all documents. -/
def Kind.plain : Kind L → Bool
  | .term _ => true
  | .all => true
  | _ => false

mutual
/-- All leaves are terms or all documents, all boosts are positive, and every boolean query has a MUST or SHOULD clause, as
rewriting leaves it. -/
def EQuery.fine (X : XArith S) : EQuery S L → Bool
  | .leaf k b => Kind.plain k && X.pos b
  | .bool b cs => X.pos b && cs.any (fun c => c.1 ≠ .mustNot) && EQuery.fineL X cs
def EQuery.fineL (X : XArith S) : List (Occur × EQuery S L) → Bool
  | [] => true
  | (_, q) :: cs => EQuery.fine X q && EQuery.fineL X cs
end

mutual
/-- A query without its boosts. -/
def EQuery.shape : EQuery S L → BQuery (Kind L)
  | .leaf k _ => .leaf k
  | .bool _ cs => .bool (EQuery.shapeL cs)
def EQuery.shapeL : List (Occur × EQuery S L) → List (Occur × BQuery (Kind L))
  | [] => []
  | (o, q) :: cs => (o, EQuery.shape q) :: EQuery.shapeL cs
end

/-- The document exists. -/
def EIx.live (ix : EIx S L) (d : Int) : Prop := 0 ≤ d ∧ d < ix.maxDoc ∧ ix.deleted d = false

end Ferret.Spec
