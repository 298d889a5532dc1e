import Verif.Spec.Inverted

/-!
What tokenizers and token filters should do (C49, C63, C64), said without reference to how they read the text.
-/

namespace Ferret.Spec

/-- The characters from `i` up to `j` are a maximal run: all of them are of the kind, and neither the one before nor the
one after is. -/
structure Run {α : Type} (p : α → Bool) (cs : List α) (i j : Nat) : Prop where
  some : i < j
  fits : j ≤ cs.length
  all : ∀ k, i ≤ k → k < j → ∃ c, cs[k]? = .some c ∧ p c = true
  before : ∀ c, 0 < i → cs[i - 1]? = .some c → p c = false
  after : ∀ c, cs[j]? = .some c → p c = false

/-- A list of exactly the maximal runs, in order. -/
def Runs {α : Type} (p : α → Bool) (cs : List α) (spans : List (Nat × Nat)) : Prop :=
  (spans.Pairwise fun a b => a.2 < b.1) ∧ ∀ i j, (i, j) ∈ spans ↔ Run p cs i j

/-- The elements from `i` up to `j`. -/
def between {α : Type} (l : List α) (i j : Nat) : List α := (l.drop i).take (j - i)

/-- `out` is as many of the pieces, in order, as fit in `n` bytes. -/
def Fits (n : Nat) (pieces : List (List Byte)) (out : List Byte) : Prop :=
  ∃ k, k ≤ pieces.length ∧ out = (pieces.take k).flatten ∧ out.length ≤ n ∧
    (k = pieces.length ∨ n < (pieces.take (k + 1)).flatten.length)

/-- Tokens with their positions, counted on from a position: the position, the text, start and end. -/
def located : Int → List Token → List (Int × List Byte × Int × Int)
  | _, [] => []
  | p, tk :: tks => (p + tk.posInc, tk.text, tk.start, tk.stop) :: located (p + tk.posInc) tks

/-- A compound word: hyphens (the byte 45), of which one is not the first byte, and from the second byte on letters
otherwise. -/
def Compound (isLetter : Byte → Bool) (text : List Byte) : Prop :=
  (45 : Byte) ∈ text.drop 1 ∧ ∀ b ∈ text.drop 1, b = 45 ∨ isLetter b = true

/-- Pieces joined by hyphens. -/
def hyphened : List (List Byte) → List Byte
  | [] => []
  | [x] => x
  | x :: y :: xs => x ++ 45 :: hyphened (y :: xs)

/-- Parts of a word that starts at `start`, from its `k`-th byte on: the first part of the word does not advance the
position, the others do. -/
def partTokens (start : Int) : Nat → List (List Byte) → List Token
  | _, [] => []
  | k, x :: xs => ⟨x, start + k, start + k + x.length, if k = 0 then 0 else 1⟩ :: partTokens start (k + x.length + 1) xs

/-- A compound word becomes the word without its hyphens, at the same place, and then its parts; a hyphen at the end
begins no part. -/
inductive HyphenParts (isLetter : Byte → Bool) (tk : Token) : List Token → Prop
  | plain (h : ¬ Compound isLetter tk.text) : HyphenParts isLetter tk [tk]
  | compound (h : Compound isLetter tk.text) (ps : List (List Byte)) (none : ∀ x ∈ ps, (45 : Byte) ∉ x)
      (joined : hyphened ps = if tk.text.getLast? = some 45 then tk.text.dropLast else tk.text) :
      HyphenParts isLetter tk ({ tk with text := tk.text.filter (· != 45) } :: partTokens tk.start 0 ps)

end Ferret.Spec
