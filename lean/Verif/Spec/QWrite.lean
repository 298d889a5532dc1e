import Verif.Spec.QTree
import Verif.Spec.QText

/-!
Writing queries down: how the text of a query is typed so that it is read as a given tree. Characters of words
that mean something in a query, blanks and backslashes are escaped.
-/

namespace Ferret.Spec
open Ferret.QP

/-- The characters that are escaped. -/
def qEscaped : List Char := qSpecial ++ [' ', '\t', '\\']

/-- A word as it is typed. -/
def typedWord (w : QWord) : List Char := w.flatMap (fun c => if c ∈ qEscaped then ['\\', c] else [c])

/-- A word with wild cards as it is typed. -/
def typedWild (w : QWord) : List Char :=
  w.flatMap (fun c => if c = '*' ∨ c = '?' then [c] else if c ∈ qEscaped then ['\\', c] else [c])

/-- What is typed for a word or a mark: a blank follows it, but for `*` and `<`. -/
def QTok.typed : QTok → List Char
  | .word w => typedWord w ++ [' ']
  | .wild w => typedWild w ++ [' ']
  | .and => ['&', '&', ' ']
  | .or => ['|', '|', ' ']
  | .req => ['+', ' ']
  | .not => ['-', ' ']
  | .sym c => if c = '*' ∨ c = '<' then [c] else [c, ' ']

/-- What is typed for words and marks in a row. -/
def typed (ts : List QTok) : List Char := ts.flatMap QTok.typed

/-- The words that are read as something else where keywords are on. -/
def qReserved : List QWord := [['A', 'N', 'D'], ['O', 'R'], ['N', 'O', 'T'], ['R', 'E', 'Q']]

/-- The words that can be typed: none is empty, none is a keyword if there are keywords, and words with wild
cards have one. -/
def QTypable (keys : Bool) (ts : List QTok) : Prop :=
  (∀ w, QTok.word w ∈ ts → w ≠ [] ∧ (keys = true → w ∉ qReserved)) ∧
  (∀ w, QTok.wild w ∈ ts → '*' ∈ w ∨ '?' ∈ w)

/-- The words of a phrase, of which the cleaning of texts keeps no escapes. -/
def QLeaf.plain : QLeaf → Bool
  | .phrase first spots _ =>
    first.all (fun w => w.all (fun c => !qEscaped.contains c)) &&
    spots.all (fun
      | .next w => w.all (fun c => !qEscaped.contains c)
      | .alt w => w.all (fun c => !qEscaped.contains c)
      | .gap => true)
  | _ => true

mutual
/-- No word of a phrase has a character that is escaped. -/
def QExp.plain : QExp → Bool
  | .leaf l => l.plain
  | .nothing => true
  | .parens cs => cs.plain
  | .within _ _ e => e.plain
  | .everywhere e => e.plain
def QClause.plain : QClause → Bool
  | .mk _ e _ => e.plain
def QClauses.plain : QClauses → Bool
  | .one c => c.plain
  | .more cs _ c => cs.plain && c.plain
end

end Ferret.Spec
