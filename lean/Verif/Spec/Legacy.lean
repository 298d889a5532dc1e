import Verif.Model.Legacy
import Verif.Spec.Tokens

/-!
Specification of the legacy standard tokenizer (C89).
-/

namespace Ferret.Spec
open Ferret

/-- The blank and the marks & ' , - . / : @ \ _. -/
def isMark (b : Byte) : Bool := [32, 38, 39, 44, 45, 46, 47, 58, 64, 92, 95].contains b

/-- '0' to '9'. -/
def isDigit (b : Byte) : Bool := 48 ≤ b && b ≤ 57

/-- The marks that may stand between the parts of a number: . , \ / _ -. -/
def isNumMark (b : Byte) : Bool := [46, 44, 92, 47, 95, 45].contains b

/-- The marks that may stand between the parts of a web address: . / - _. -/
def isUrlMark (b : Byte) : Bool := [46, 47, 45, 95].contains b

/-- What holds of `<ctype.h>` in any locale: 'A' to 'Z' and 'a' to 'z' are letters, marks and digits are not; letters, digits and the
marks but the blank are no white space. -/
structure CtypeLaws (L : Ana.Loc) : Prop where
  letter : ∀ b : Byte, (65 ≤ b ∧ b ≤ 90) ∨ (97 ≤ b ∧ b ≤ 122) → L.isAlpha b = true
  digit : ∀ b, isDigit b = true → L.isAlpha b = false
  mark : ∀ b, isMark b = true → L.isAlpha b = false
  space : ∀ b, (isMark b = true ∧ b ≠ 32) ∨ L.isAlpha b = true ∨ isDigit b = true → L.isSpace b = false

/-- Among any 257 bytes in a row there is a blank. -/
def ShortWords (text : List Byte) : Prop :=
  ∀ i : Nat, i + 256 < text.length → ∃ j : Nat, i ≤ j ∧ j ≤ i + 256 ∧ text[j]? = some 32

/-- The text begins with a mark and a digit, as in "-5" and ".5". -/
def SignFirst : List Byte → Bool
  | a :: b :: _ => isNumMark a && isDigit b
  | _ => false

/-- "ftp", "http", "https", "file". -/
def knownSchemes : List (List Byte) := [[102, 116, 112], [104, 116, 116, 112], [104, 116, 116, 112, 115], [102, 105, 108, 101]]

/-- How a part of a text may be given as the text of a token. -/
inductive GivenAs (L : Ana.Loc) (whole : List Byte) : List Byte → Prop
  /-- As it is. -/
  | asIs : GivenAs L whole (whole.take 254)
  /-- Without the 's, 'S or ' at its end. -/
  | possessive (w tail : List Byte) : tail ∈ [[39, 115], [39, 83], [39]] → whole = w ++ tail → GivenAs L whole (w.take 254)
  /-- An acronym, in which every letter is followed by a full stop, without the full stops. -/
  | acronym : (∀ (i : Nat) b c, whole[i]? = some b → whole[i + 1]? = some c → L.isAlpha b = true → c = 46) →
      GivenAs L whole ((whole.filter (· != 46)).take 254)
  /-- A web address, without marks at its end, and without a known scheme and the slashes after it. -/
  | url (pre rest body marks : List Byte) : whole = pre ++ rest →
      (pre = [] ∨ ∃ name more slashes, name ∈ knownSchemes ∧ pre = name ++ more ++ [58, 47, 47] ++ slashes ∧ (∀ b ∈ slashes, b = 47) ∧
        rest.head?.any L.isAlpha = true) →
      (∃ a c, whole = a ++ [58, 47, 47] ++ c) →
      rest.take 254 = body ++ marks → (∀ b ∈ marks, isUrlMark b = true) → (∀ b, body.getLast? = some b → isUrlMark b = false) →
      GivenAs L whole body

/-- A token of a text: it begins before it ends, within the text, it gives what is there, and it is one position after
the token before. -/
def TokenOf (L : Ana.Loc) (text : List Byte) (tk : Token) : Prop :=
  ∃ s e : Nat, tk.start = s ∧ tk.stop = e ∧ s < e ∧ e ≤ text.length ∧ tk.posInc = 1 ∧ GivenAs L (between text s e) tk.text

/-! ### What words are given as -/

/-- A letter or digit. -/
def isLetterOrDigit (L : Ana.Loc) (b : Byte) : Bool := L.isAlpha b || isDigit b

/-- No two bytes of which `p` holds stand side by side. -/
def Apart (p : Byte → Bool) : List Byte → Prop
  | a :: b :: r => (p a && p b) = false ∧ Apart p (b :: r)
  | _ => True

/-- The letters with full stops between them. -/
def dotted : List Byte → List Byte
  | [] => []
  | [a] => [a]
  | a :: r => a :: 46 :: dotted r

/-- A mark of addresses: . / - _ @. -/
def isAddressMark (b : Byte) : Bool := isUrlMark b || b == 64

/-- `LegacyWord L w trail txt`: the word `w`, with `trail` after it, is given as `txt`. -/
inductive LegacyWord (L : Ana.Loc) : List Byte → List Byte → List Byte → Prop
  /-- Letters and digits: as they are. -/
  | plain (w : List Byte) : w ≠ [] → (∀ b ∈ w, isLetterOrDigit L b = true) → LegacyWord L w [] (w.take 254)
  /-- A word of letters, and a full stop or a comma. -/
  | ended (w : List Byte) (c : Byte) : w ≠ [] → (∀ b ∈ w, L.isAlpha b = true) → c ∈ [46, 44] → LegacyWord L w [c] (w.take 254)
  /-- "dave's", "DAVE'S", "dogs'": without the ending. -/
  | possessive (w tail : List Byte) : w ≠ [] → (∀ b ∈ w, isLetterOrDigit L b = true) → tail ∈ [[39, 115], [39, 83], [39]] →
      LegacyWord L (w ++ tail) [] (w.take 254)
  /-- "don't": as it is. -/
  | contraction (a b : List Byte) : a ≠ [] → (∀ x ∈ a, isLetterOrDigit L x = true) → b ≠ [] → (∀ x ∈ b, L.isAlpha x = true) →
      b ∉ [[115], [83]] → LegacyWord L (a ++ 39 :: b) [] ((a ++ 39 :: b).take 254)
  /-- "AT&T": as it is. -/
  | company (a b : List Byte) : a ≠ [] → (∀ x ∈ a, isLetterOrDigit L x = true) → (∀ x ∈ b, L.isAlpha x = true ∨ x = 64 ∨ x = 38) →
      LegacyWord L (a ++ 38 :: b) [] ((a ++ 38 :: b).take 254)
  /-- "U.S.A" and "U.S.A.": the letters. -/
  | acronym (ls trail : List Byte) : 2 ≤ ls.length → ls.length ≤ 254 → (∀ b ∈ ls, L.isAlpha b = true) → trail ∈ [[], [46]] →
      LegacyWord L (dotted ls) trail ls
  /-- "http://www.google.com/results": without the scheme. -/
  | url (scheme host : List Byte) : scheme ∈ knownSchemes → host.head?.any L.isAlpha = true → host.length ≤ 254 →
      (∀ b ∈ host, isUrlMark b = true ∨ isLetterOrDigit L b = true) → Apart isUrlMark host → (∀ b, host.getLast? = some b → isUrlMark b = false) →
      LegacyWord L (scheme ++ [58, 47, 47] ++ host) [] host
  /-- Numbers as "23.4", "-52" and "2008-12-31": as they are. -/
  | number (sign w : List Byte) : (sign = [] ∨ ∃ c, sign = [c] ∧ isNumMark c = true) → w.head?.any isDigit = true →
      (∀ b, w.getLast? = some b → isDigit b = true) → (∀ b ∈ w, isDigit b = true ∨ isNumMark b = true) → Apart isNumMark w →
      LegacyWord L (sign ++ w) [] ((sign ++ w).take 254)
  /-- "dave@example.com", "e-mail", "underscored_word": as they are. -/
  | address (a : List Byte) (c : Byte) (r : List Byte) : a ≠ [] → (∀ x ∈ a, isLetterOrDigit L x = true) → a.head?.any isDigit = false →
      isAddressMark c = true → (∀ b ∈ r, isAddressMark b = true ∨ isLetterOrDigit L b = true) → Apart isAddressMark (c :: r) →
      ((c :: r).filter (· == 64)).length ≤ 1 → r ≠ [] → (∀ b, r.getLast? = some b → isAddressMark b = false) →
      ((∃ b ∈ c :: r, L.isAlpha b = false ∧ b ≠ 46) ∨ ∃ p x y q, a ++ c :: r = p ++ x :: y :: q ∧ L.isAlpha x = true ∧ y ≠ 46) →
      LegacyWord L (a ++ c :: r) [] ((a ++ c :: r).take 254)

/-- Words, each with a blank before it. -/
def spaced (ws : List (List Byte × List Byte × List Byte)) : List Byte := ws.flatMap fun w => 32 :: (w.1 ++ w.2.1)

/-- The tokens of such words, from an offset. -/
def spacedTokens : Nat → List (List Byte × List Byte × List Byte) → List Token
  | _, [] => []
  | off, w :: ws => ⟨w.2.2, ((off + 1 : Nat) : Int), ((off + 1 + w.1.length : Nat) : Int), 1⟩ :: spacedTokens (off + 1 + w.1.length + w.2.1.length) ws

/-- What holds of multi-byte encodings like UTF-8: bytes under 128 stand for themselves, and are no part of other
characters; marks are no letters and no digits, and but for the blank they are no white space. -/
structure AsciiSafe (M : Ana.MbLoc) (alnum : Nat → Bool) : Prop where
  ascii : ∀ (b : Byte) bs, b.toNat < 128 → M.decode (b :: bs) = some (b.toNat, 1)
  wide : ∀ (b : Byte) bs w n, 128 ≤ b.toNat → M.decode (b :: bs) = some (w, n) →
    0 < w ∧ 0 < n ∧ n ≤ (b :: bs).length ∧ ∀ x ∈ (b :: bs).take n, 128 ≤ x.toNat
  mark : ∀ b : Byte, isMark b = true → alnum b.toNat = false
  space : ∀ b : Byte, isMark b = true → b ≠ 32 → M.isSpace b.toNat = false

end Ferret.Spec
