import Verif.Model.Sort
import Verif.Spec.Search

/-! What a sorted search must return. Shared with the model are only the data types: hits, sort
fields, and the parameters that stand for the C library. -/

namespace Ferret.Spec
open Ferret.Search (Hit)
open Ferret.Sort (SortField SType Lib)

variable {S : Type}

/-- The value a document has in a field, for sorting: of the terms it has there, the last one in the
order of terms. -/
def lastTerm (terms : List (List Byte × List Nat)) (d : Nat) : Option (List Byte) :=
  ((terms.filter fun x => x.2.contains d).map (·.1)).getLast?

/-- `strcoll` orders strings. -/
structure Collation (coll : List Byte → List Byte → Int) : Prop where
  swap : ∀ s t, 0 < coll s t ↔ coll t s < 0
  trans : ∀ s t u, coll s t ≤ 0 → coll t u ≤ 0 → coll s u ≤ 0

/-- What the library must do for sorting to make sense: floats are ordered (none is a NaN), so are strings, and there is no number in the empty string. -/
structure LibOK (lib : Lib S) : Prop where
  float : StrictWeak lib.lt
  coll : Collation lib.coll
  empty : lib.scanD [] = none

/-- What the documents are compared by. -/
structure Values (S : Type) where
  lib : Lib S
  val : List Byte → Nat → Option (List Byte)

/-- The values of the documents of one index. -/
def valuesIn (lib : Lib S) (terms : List Byte → Option (List (List Byte × List Nat))) : Values S :=
  ⟨lib, fun f d => (terms f).bind fun ts => lastTerm ts d⟩

/-- The integer a document has; 0 without a term. -/
def Values.int (v : Values S) (f : List Byte) (d : Nat) : Int := ((v.val f d).bind v.lib.scanLd).getD 0

/-- The float a document has; 0.0 without a term. -/
def Values.float (v : Values S) (f : List Byte) (d : Nat) : S := (((v.val f d).bind v.lib.scanF).map (·.1)).getD v.lib.zero

/-- Byte by byte; documents without a term first. -/
def byteBefore : Option (List Byte) → Option (List Byte) → Bool
  | none, some _ => true
  | some s, some t => decide (s < t)
  | _, none => false

/-- In the order of the locale; documents without a term last. -/
def strBefore (coll : List Byte → List Byte → Int) : Option (List Byte) → Option (List Byte) → Bool
  | some _, none => true
  | some s, some t => decide (coll s t < 0)
  | none, _ => false

/-- By this sort field, its direction aside, `a` comes before `b`: greater scores first, all else
ascending. -/
def comesBefore (v : Values S) (sf : SortField) (a b : Hit S) : Bool :=
  match sf.type with
  | .score => v.lib.lt b.score a.score
  | .doc => decide (a.doc < b.doc)
  | .byte => byteBefore (v.val sf.field a.doc) (v.val sf.field b.doc)
  | .integer => decide (v.int sf.field a.doc < v.int sf.field b.doc)
  | .float => v.lib.lt (v.float sf.field a.doc) (v.float sf.field b.doc)
  | .string => strBefore v.lib.coll (v.val sf.field a.doc) (v.val sf.field b.doc)
  | .auto => false

/-- The same with the direction. -/
def precedes (v : Values S) (sf : SortField) (a b : Hit S) : Bool :=
  if sf.reverse then comesBefore v sf b a else comesBefore v sf a b

/-- `a` is listed before `b`: the first sort field that tells them apart decides, then the document
number. -/
def listedBefore (v : Values S) : List SortField → Hit S → Hit S → Bool
  | [], a, b => decide (a.doc < b.doc)
  | sf :: sfs, a, b => precedes v sf a b || (!precedes v sf b a && listedBefore v sfs a b)

/-- All hits in the order of the sort. -/
def sortedHits (v : Values S) (sort : List SortField) (hits : List (Hit S)) : List (Hit S) :=
  hits.mergeSort fun a b => !listedBefore v sort b a

/-- The type AUTO stands for, from the first term of the field: the whole of it an integer, else the
whole of it a float, else a string. -/
def autoType (lib : Lib S) (t : List Byte) : SType :=
  if t = [] ∨ lib.scanD t = some t.length then .integer
  else if (lib.scanF t).map (·.2) = some t.length then .float
  else .string

/-- A sort field with AUTO replaced. -/
def settled (lib : Lib S) (terms : List Byte → Option (List (List Byte × List Nat))) (sf : SortField) : SortField :=
  match sf.type, terms sf.field with
  | .auto, some (x :: _) => { sf with type := autoType lib x.1 }
  | _, _ => sf

end Ferret.Spec
