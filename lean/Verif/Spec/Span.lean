import Verif.Model.Span
import Verif.Spec.Phrase

/-! What the spans of a span query are. -/

namespace Ferret.Spec

open Ferret.Span (Sp SpanQ)
open Ferret.Post (Posting)
open Ferret.Phrase (DocsOK)

variable {T : Type}

/-- In order of document, and of start in a document. -/
def SpLe (a b : Sp) : Prop := a.doc < b.doc ∨ a.doc = b.doc ∧ a.start ≤ b.start

/-- In order of document, start and end. -/
def SpLex (a b : Sp) : Prop := a.doc < b.doc ∨ a.doc = b.doc ∧ (a.start < b.start ∨ a.start = b.start ∧ a.stop ≤ b.stop)

/-- The spans are in one document and share a position. -/
def Overlap (a b : Sp) : Prop := a.doc = b.doc ∧ a.start < b.stop ∧ b.start < a.stop

/-- Document numbers and positions are those of an index: not negative, and less than INT_MAX. -/
def Proper (x : Sp) : Prop := 0 ≤ x.doc ∧ x.doc < 2147483647 ∧ 0 ≤ x.start ∧ x.start < 2147483647 ∧ x.start < x.stop

/-- The lengths of the spans in document `d`. -/
def lengthsIn (d : Int) (L : List Sp) : List Int := (L.filter fun x => decide (x.doc = d)).map fun x => x.stop - x.start

/-- In order of document and start, no two spans with the same start. -/
def SpLt (a b : Sp) : Prop := a.doc < b.doc ∨ a.doc = b.doc ∧ a.start < b.start

/-- The postings of the terms are those of an index: documents and positions ascend, the frequency is the number of
positions, and the numbers are not negative and less than INT_MAX. -/
structure IndexOK (ix : T → List Posting) : Prop where
  docs : ∀ t, DocsOK (ix t)
  pos : ∀ t, ∀ p ∈ ix t, p.occ.Pairwise (· < ·)
  lim : ∀ t, ∀ p ∈ ix t, p.doc < 2147483647 ∧ ∀ x ∈ p.occ, 0 ≤ x ∧ x < 2147483647

/-- The span is an occurrence of the term. -/
def OccursAt (ix : T → List Posting) (t : T) (x : Sp) : Prop :=
  ∃ p ∈ ix t, x.doc = p.doc ∧ x.start ∈ p.occ ∧ x.stop = x.start + 1

/-- One span from each list. -/
inductive Pick : List (List Sp) → List Sp → Prop
  | nil : Pick [] []
  | cons {K Ks x xs} : x ∈ K → Pick Ks xs → Pick (K :: Ks) (x :: xs)

/-- The length of the text from the start to the end of `z` that is not in the spans `xs`. -/
def gap (z : Sp) (xs : List Sp) : Int := z.stop - z.start - (xs.map fun x => x.stop - x.start).sum

/-- `z` reaches from the first start to the last end of the spans `xs` of one document. -/
def Around (z : Sp) (xs : List Sp) : Prop :=
  (∀ x ∈ xs, x.doc = z.doc ∧ z.start ≤ x.start ∧ x.stop ≤ z.stop) ∧ (∃ x ∈ xs, x.start = z.start) ∧ ∃ x ∈ xs, x.stop = z.stop

/-- The spans `xs` of one document follow one another; `z` reaches from the start of the first to the end of the last. -/
def Along (z : Sp) (xs : List Sp) : Prop :=
  (∀ x ∈ xs, x.doc = z.doc) ∧ xs.Pairwise SpLex ∧ (∃ x, xs.head? = some x ∧ x.start = z.start) ∧ ∃ x, xs.getLast? = some x ∧ x.stop = z.stop

/-- `z` is the text of the spans `xs` with at most `slop` in between. -/
def Near (slop : Int) (inOrder : Bool) (z : Sp) (xs : List Sp) : Prop :=
  (if inOrder then Along z xs else Around z xs) ∧ gap z xs ≤ slop

/-- All spans are single positions. -/
def Single (L : List Sp) : Prop := ∀ x ∈ L, x.stop = x.start + 1

/-- `L` are the spans of a `near` query whose clauses have the spans `Ks`: each is the text of spans of the clauses near
one another, and, if clauses are single positions, all such texts contain one of `L`. -/
def NearSpans (slop : Int) (inOrder : Bool) (Ks : List (List Sp)) (L : List Sp) : Prop :=
  (∀ z ∈ L, ∃ xs, Pick Ks xs ∧ Near slop inOrder z xs) ∧
  ((∀ K ∈ Ks, Single K) → ∀ z xs, Pick Ks xs → Near slop inOrder z xs → ∃ w ∈ L, w.doc = z.doc ∧ z.start ≤ w.start ∧ w.stop ≤ z.stop)

mutual
/-- `L` are the spans of the query. -/
def Says (ix : T → List Posting) : SpanQ T → List Sp → Prop
  | .term t, L => L.Pairwise SpLt ∧ ∀ x, x ∈ L ↔ OccursAt ix t x
  | .multi ts, L => L.Pairwise SpLt ∧ ∀ x, x ∈ L ↔ ∃ t ∈ ts, OccursAt ix t x
  | .first q limit, L => ∃ K, Says ix q K ∧ L = K.filter fun x => decide (x.stop ≤ limit)
  | .or qs, L => ∃ Ks, SaysAll ix qs Ks ∧ L.Pairwise SpLe ∧ L.Perm Ks.flatten
  | .near [q] _ _, L => Says ix q L
  | .near qs slop inOrder, L => ∃ Ks, SaysAll ix qs Ks ∧ L.Pairwise SpLe ∧ NearSpans slop inOrder Ks L
  | .not inc exc, L => ∃ I E, Says ix inc I ∧ Says ix exc E ∧ L.Sublist I ∧ ∀ x, x ∈ L ↔ x ∈ I ∧ ∀ e ∈ E, ¬ Overlap x e

/-- `Ks` are the spans of the queries. -/
def SaysAll (ix : T → List Posting) : List (SpanQ T) → List (List Sp) → Prop
  | [], Ks => Ks = []
  | q :: qs, Ks => ∃ K Ks', Says ix q K ∧ SaysAll ix qs Ks' ∧ Ks = K :: Ks'
end

/-! Which queries the theorem is about. -/

/-- What may be asked of the enumerators of terms: whether there may be any of several terms; whether that of a term may
be asked to jump; whether they may be asked where they are, and to jump, after the end. -/
structure Leaves (T : Type) where
  multi : Bool
  jump : T → Bool
  late : Bool

/-- Those of an index may be asked anything. -/
abbrev indexLeaves : Leaves T := ⟨true, fun _ => true, true⟩

/-- The enumerator may be asked where it is before its first move: that of an `or` of several clauses may not. -/
def startsSafely : SpanQ T → Bool
  | .term _ | .multi _ => true
  | .first q _ => startsSafely q
  | .or [q] => startsSafely q
  | .or _ => false
  | .near [q] _ _ => startsSafely q
  | .near _ _ _ => true
  | .not a _ => startsSafely a

variable (lv : Leaves T)

/-- The enumerator may be asked where it is, and to jump, after its end: those of `or` and `near` of several clauses, and
of `not`, may not. -/
def endsSafelyW : SpanQ T → Bool
  | .term _ | .multi _ => lv.late
  | .first q _ => endsSafelyW q
  | .or [q] => endsSafelyW q
  | .or _ => false
  | .near [q] _ _ => endsSafelyW q
  | .near _ _ _ => false
  | .not _ _ => false

mutual
/-- The enumerator may be asked to jump. -/
def jumpsW : SpanQ T → Bool
  | .term t => lv.jump t
  | .multi _ => true
  | .first q _ => jumpsW q
  | .or qs | .near qs _ _ => allJumpW qs
  | .not a b => jumpsW a && endsSafelyW lv b

def allJumpW : List (SpanQ T) → Bool
  | [] => true
  | q :: qs => jumpsW q && allJumpW qs
end

mutual
/-- The order of the spans of a query: 0 if they are single positions, 1 if starts and ends ascend, 2 if they ascend in
start and then end, 3 if the starts ascend. -/
def rank : SpanQ T → Nat
  | .term _ | .multi _ => 0
  | .first q _ => rank q
  | .not a _ => rank a
  | .or [q] => rank q
  | .or qs => if ranks qs = 0 then 0 else 2
  | .near [q] _ _ => rank q
  | .near qs _ _ => if ranks qs ≤ 1 then 1 else 3

/-- The largest rank. -/
def ranks : List (SpanQ T) → Nat
  | [] => 0
  | q :: qs => max (rank q) (ranks qs)
end

mutual
/-- The queries the theorem is about. Those excluded are: any of several terms, where the leaves do not allow it; `near`
without clauses; `near` with a clause, other than the first, that starts with an `or`; `near` with a clause, and `not`
with an excluded query, that may not be asked to jump: because of a term, or of a `not` whose excluded query is an `or`,
a `near` or a `not` (or a term, where the leaves do not end safely); `or` with a clause that is a `near` with a clause
that is an `or` with a clause that is a `near`. -/
def SupportedW : SpanQ T → Bool
  | .term _ => true
  | .multi _ => lv.multi
  | .first q _ => SupportedW q
  | .or qs => allSupportedW qs && ranks qs ≤ 2
  | .near [] _ _ => false
  | .near [q] _ _ => SupportedW q
  | .near (q :: qs) _ _ => SupportedW q && allSupportedW qs && jumpsW lv q && allJumpW lv qs && qs.all startsSafely
  | .not a b => SupportedW a && SupportedW b && jumpsW lv b

def allSupportedW : List (SpanQ T) → Bool
  | [] => true
  | q :: qs => SupportedW q && allSupportedW qs
end

/-- Which queries the theorem is about, in an index. -/
abbrev jumps (q : SpanQ T) : Bool := jumpsW indexLeaves q
abbrev Supported (q : SpanQ T) : Bool := SupportedW indexLeaves q

/-! Term vectors. -/

/-- The terms have positions, these ascend, and are those of an index. -/
def VectorOK (tv : T → Option (List Int)) : Prop :=
  ∀ t ps, tv t = some ps → ps ≠ [] ∧ ps.Pairwise (· < ·) ∧ ∀ p ∈ ps, 0 ≤ p ∧ p < 2147483647

/-- The index of one document, 0, with this term vector. -/
def asIndex (tv : T → Option (List Int)) (t : T) : List Posting :=
  match tv t with
  | none => []
  | some ps => [⟨0, ps.length, ps⟩]

/-- Enumerators over a term vector may be asked to jump if the term is in the vector, but not after the end. -/
abbrev vectorLeaves (tv : T → Option (List Int)) : Leaves T := ⟨false, fun t => (tv t).isSome, false⟩

mutual
/-- The query asks for the term; those of excluded queries are not meant. -/
def Mentions : SpanQ T → T → Prop
  | .term t, u => u = t
  | .multi ts, u => u ∈ ts
  | .first q _, u => Mentions q u
  | .or qs, u | .near qs _ _, u => MentionsAny qs u
  | .not a _, u => Mentions a u

def MentionsAny : List (SpanQ T) → T → Prop
  | [], _ => False
  | q :: qs, u => Mentions q u ∨ MentionsAny qs u
end

end Ferret.Spec
