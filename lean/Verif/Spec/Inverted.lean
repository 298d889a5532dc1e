import Verif.Spec.Bytes

/-!
What an index should say of the documents added to it (C48, C62): where each term occurs.
-/

namespace Ferret.Spec
open Ferret

/-- A token as an analyzer gives it: text, start and end within the text analyzed, and by how much it advances
the position. -/
structure Token where
  text : List Byte
  start : Int
  stop : Int
  posInc : Int
  deriving DecidableEq

/-- The texts and positions of tokens that follow a position. -/
def placesFrom : Int → List Token → List (List Byte × Int)
  | _, [] => []
  | p, tk :: tks => (tk.text, p + tk.posInc) :: placesFrom (p + tk.posInc) tks

/-- The texts and positions of the tokens of a field: positions are counted from 0, so they begin before it. -/
def places (tks : List Token) : List (List Byte × Int) := placesFrom (-1) tks

/-- The positions of one term. -/
def positionsOf (ps : List (List Byte × Int)) (t : List Byte) : List Int := (ps.filter fun x => decide (x.1 = t)).map (·.2)

/-- The documents in which a term occurs, with the positions; documents are given by where their terms are,
and numbered from `k`. -/
def occurrencesFrom (k : Nat) : List (List (List Byte × Int)) → List Byte → List (Nat × List Int)
  | [], _ => []
  | d :: ds, t =>
    if positionsOf d t = [] then occurrencesFrom (k + 1) ds t
    else (k, positionsOf d t) :: occurrencesFrom (k + 1) ds t

/-- Numbered from 0. -/
def occurrences (ds : List (List (List Byte × Int))) (t : List Byte) : List (Nat × List Int) := occurrencesFrom 0 ds t

/-- A token whose offsets are counted from elsewhere. -/
def shift (start : Int) (tk : Token) : Token := { tk with start := start + tk.start, stop := start + tk.stop }

/-- All tokens of the values of a field. -/
def allTokens : Int → List (List Byte × List Token) → List Token
  | _, [] => []
  | start, (d, tks) :: vs => tks.map (shift start) ++ allTokens (start + d.length + 1) vs

/-- The tokens kept of the values of a field: of each, as many as the limit leaves and one more; their offsets are
those in the joined text. -/
def keptTokens (max : Int) : Nat → Int → List (List Byte × List Token) → List Token
  | _, _, [] => []
  | n, start, (d, tks) :: vs =>
    (tks.take ((max - n).toNat + 1)).map (shift start) ++
      keptTokens max (n + (tks.take ((max - n).toNat + 1)).length) (start + d.length + 1) vs

/-- The position, start and end of tokens that follow a position. -/
def spansFrom : Int → List Token → List (Int × (Int × Int))
  | _, [] => []
  | p, tk :: tks => (p + tk.posInc, (tk.start, tk.stop)) :: spansFrom (p + tk.posInc) tks

/-- The offsets at a position: those of the last token there, or zeros. -/
def spanAt (ss : List (Int × (Int × Int))) (p : Int) : Int × Int :=
  (((ss.filter fun s => decide (s.1 = p)).getLast?).map (·.2)).getD (0, 0)

/-- The offsets by position, up to the last token's. -/
def offsetTable (tks : List Token) : List (Int × Int) :=
  (List.range ((spansFrom (-1) tks).getLast?.elim 0 fun s => (s.1 + 1).toNat)).map fun (p : Nat) => spanAt (spansFrom (-1) tks) p

/-- A term among others, each once and in order. -/
def insertTerm (t : List Byte) : List (List Byte) → List (List Byte)
  | [] => [t]
  | u :: us => if u < t then u :: insertTerm t us else if t = u then u :: us else t :: u :: us

/-- The terms of a field, each once and in order. -/
def termsIn : List (List Byte × Int) → List (List Byte)
  | [] => []
  | x :: xs => insertTerm x.1 (termsIn xs)

end Ferret.Spec
