import Verif.Model.Expand
import Verif.Spec.Phrase

/-!
What parts of a field a query marks (C85). A field is known by its words: `words t p` says that the word `t` is at
position `p`.
-/

namespace Ferret.Spec

open Ferret.Expand (Term Range Scan)

mutual
/-- Queries as far as highlighting knows them. `F`: the names of fields. -/
inductive MQ (F : Type) where
  /-- A word. -/
  | term (field : F) (t : Term)
  /-- Any of several words. -/
  | anyOf (field : F) (ts : List Term)
  /-- The words between two words. -/
  | range (field : F) (r : Range)
  /-- A typed range: the numbers between two numbers. -/
  | numRange (field : F) (r : Range)
  /-- A phrase. -/
  | phrase (field : F) (parts : List (PhrasePart Term)) (slop : Int)
  /-- A boolean query. -/
  | bool (clauses : MClauses F)
  /-- Any other query that is not about words: filters and constants. -/
  | other
/-- The clauses of a boolean query; `prohibited`: the clause says what must not be. -/
inductive MClauses (F : Type) where
  | nil
  | cons (prohibited : Bool) (q : MQ F) (rest : MClauses F)
end

/-- A word is between the bounds of a range. -/
def Between (r : Range) (t : Term) : Prop :=
  (∀ l, r.lower = some l → l < t ∨ (r.includeLower = true ∧ t = l)) ∧ (∀ u, r.upper = some u → t < u ∨ (r.includeUpper = true ∧ t = u))

/-- The whole word is the number `v`, for a function `scan` that reads numbers. -/
def IsNum (scan : Scan) (t : Term) (v : Int) : Prop := scan t = some (v, t.length)

/-- A number is between the bounds of a range. -/
def NumBetween (scan : Scan) (r : Range) (v : Int) : Prop :=
  (∀ t l, r.lower = some t → IsNum scan t l → if r.includeLower then l ≤ v else l < v) ∧
  (∀ t u, r.upper = some t → IsNum scan t u → if r.includeUpper then v ≤ u else v < u)

/-- The bounds are numbers. -/
def NumBounds (scan : Scan) (r : Range) : Prop :=
  (∀ t, r.lower = some t → ∃ v, IsNum scan t v) ∧ (∀ t, r.upper = some t → ∃ v, IsNum scan t v)

/-- What a typed range asks for: if its bounds are numbers, the numbers between them, and otherwise the words between
them. -/
def Typed (scan : Scan) (r : Range) (t : Term) : Prop :=
  (NumBounds scan r → ∃ v, IsNum scan t v ∧ NumBetween scan r v) ∧ (¬ NumBounds scan r → Between r t)

/-- `c i` is where the phrase would start if its part number `i` were where a word for it is; all these starts are
from `lo` to `hi`. -/
def Choice (words : Term → Int → Prop) (parts : List (PhrasePart Term)) (c : Nat → Int) (lo hi : Int) : Prop :=
  ∀ i x, parts[i]? = some x → lo ≤ c i ∧ c i ≤ hi ∧ ∃ t ∈ x.terms, words t (c i + x.offset)

/-- The words of the choice go from position `a` to position `b`. -/
def MarkEnds (parts : List (PhrasePart Term)) (c : Nat → Int) (a b : Int) : Prop :=
  (∃ i x, parts[i]? = some x ∧ a = c i + x.offset) ∧ (∃ i x, parts[i]? = some x ∧ b = c i + x.offset) ∧
  ∀ i x, parts[i]? = some x → a ≤ c i + x.offset ∧ c i + x.offset ≤ b

mutual
/-- The positions from `a` to `b` are something the query asks for, in the field named `fld`. -/
def MayMark {F : Type} (scan : Scan) (words : Term → Int → Prop) (fld : F) : MQ F → Int → Int → Prop
  | .term f t, a, b => f = fld ∧ a = b ∧ words t a
  | .anyOf f ts, a, b => f = fld ∧ a = b ∧ ∃ t ∈ ts, words t a
  | .range f r, a, b => f = fld ∧ a = b ∧ ∃ t, Between r t ∧ words t a
  | .numRange f r, a, b => f = fld ∧ a = b ∧ ∃ t, Typed scan r t ∧ words t a
  | .phrase f parts slop, a, b => f = fld ∧ ∃ c lo, Choice words parts c lo (lo + max slop 0) ∧ MarkEnds parts c a b
  | .bool cs, a, b => AnyMay scan words fld cs a b
  | .other, _, _ => False
/-- A clause that is not prohibited asks for it. -/
def AnyMay {F : Type} (scan : Scan) (words : Term → Int → Prop) (fld : F) : MClauses F → Int → Int → Prop
  | .nil, _, _ => False
  | .cons p q cs, a, b => (p = false ∧ MayMark scan words fld q a b) ∨ AnyMay scan words fld cs a b
end

mutual
/-- The ranges `L` show all that the query asks for. For every choice of words for a phrase there is a range whose words
are as close together, in the same window; if the phrase is exact, that is the range of these words. -/
def MarksAll {F : Type} (scan : Scan) (words : Term → Int → Prop) (fld : F) (L : List (Int × Int)) : MQ F → Prop
  | .term f t => f = fld → ∀ a, words t a → (a, a) ∈ L
  | .anyOf f ts => f = fld → ∀ t ∈ ts, ∀ a, words t a → (a, a) ∈ L
  | .range f r => f = fld → ∀ t a, Between r t → words t a → (a, a) ∈ L
  | .numRange f r => f = fld → ∀ t a, Typed scan r t → words t a → (a, a) ∈ L
  | .phrase f parts slop => f = fld → ∀ c lo hi, hi ≤ lo + max slop 0 → Choice words parts c lo hi →
      ∃ c' a b, Choice words parts c' lo hi ∧ MarkEnds parts c' a b ∧ (a, b) ∈ L
  | .bool cs => AllMark scan words fld L cs
  | .other => True
/-- For every clause that is not prohibited. -/
def AllMark {F : Type} (scan : Scan) (words : Term → Int → Prop) (fld : F) (L : List (Int × Int)) : MClauses F → Prop
  | .nil => True
  | .cons p q cs => (p = false → MarksAll scan words fld L q) ∧ AllMark scan words fld L cs
end

end Ferret.Spec
