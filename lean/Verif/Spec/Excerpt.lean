import Verif.Spec.Highlight

/-!
Excerpts of a text (C84). A match is known by the offsets between which its text lies, and has a score. A window
is a run of matches. What an excerpt shows is a part of the text with tags around a run of matches.
-/

namespace Ferret.Spec
open Ferret

/-- A match: where its text starts and ends, and its score. -/
structure Hit where
  from_ : Int
  upto : Int
  score : Int

/-- The matches from number `w.1` to number `w.2` are all the matches that end within `len` of the start of the
first. -/
structure IsWindow (len : Int) (hits : List Hit) (w : Nat × Nat) : Prop where
  order : w.1 ≤ w.2
  there : w.2 < hits.length
  within : ∀ a b, hits[w.1]? = some a → hits[w.2]? = some b → b.upto ≤ a.from_ + len
  all : ∀ a b, hits[w.1]? = some a → hits[w.2 + 1]? = some b → a.from_ + len < b.upto

/-- Is the match in one of the windows? -/
def inWindows (seen : List (Nat × Nat)) (k : Nat) : Bool := seen.any fun w => decide (w.1 ≤ k) && decide (k ≤ w.2)

/-- The score of the matches of a window that are not in windows seen before. -/
def worth (hits : List Hit) (seen : List (Nat × Nat)) (w : Nat × Nat) : Int :=
  ((List.range' w.1 (w.2 + 1 - w.1)).map fun k =>
    if inWindows seen k then 0 else match hits[k]? with | some h => h.score | none => 0).sum

/-- Each window is worth at least as much as any other not chosen before it, and was not chosen before. -/
def BestFirst (len : Int) (hits : List Hit) : List (Nat × Nat) → List (Nat × Nat) → Prop
  | _, [] => True
  | seen, w :: ws =>
    IsWindow len hits w ∧ w ∉ seen ∧ (∀ v, IsWindow len hits v → v ∉ seen → worth hits seen v ≤ worth hits seen w) ∧
      BestFirst len hits (w :: seen) ws

/-- What an excerpt shows: the text between two offsets, with tags around `count` matches from the one numbered
`first` on. It takes the place of `merged` excerpts. -/
structure Shown where
  first : Nat
  count : Nat
  from_ : Int
  upto : Int
  merged : Nat

/-- The text between two offsets. -/
def partOf (text : List Byte) (s e : Int) : List Byte := (text.drop s.toNat).take (e - s).toNat

/-- `out` is the excerpt: the part of the text, with tags around its matches, and an ellipsis where text is left
out. -/
def ShowsText (text : List Byte) (hits : List Hit) (pre post ell : List Byte) (x : Shown) (out : List Byte) : Prop :=
  0 ≤ x.from_ ∧ x.from_ ≤ x.upto ∧ x.upto ≤ text.length ∧
  ∃ cuts : Cuts, cuts.plain = partOf text x.from_ x.upto ∧ cuts.parts.length = x.count ∧
    (∀ i < x.count, ∃ h, hits[x.first + i]? = some h ∧ cuts.tagsFrom i (h.from_ - x.from_) (h.upto - x.from_)) ∧
    out = (if 0 < x.from_ then ell else []) ++ cuts.tagged pre post ++ (if x.upto < text.length then ell else [])

/-- One for one, the outputs are what is shown. -/
inductive AllShow (text : List Byte) (hits : List Hit) (pre post ell : List Byte) : List Shown → List (List Byte) → Prop
  | nil : AllShow text hits pre post ell [] []
  | cons {x xs out outs} : ShowsText text hits pre post ell x out → AllShow text hits pre post ell xs outs →
      AllShow text hits pre post ell (x :: xs) (out :: outs)

end Ferret.Spec
