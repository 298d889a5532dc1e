import Verif.Spec.Bytes

/-! What a user can rely on of the standard tokenizer. -/

namespace Ferret.Spec
open Ferret

/-- An ASCII letter or digit. -/
def isAlnum (b : Byte) : Bool := (48 ≤ b && b ≤ 57) || (65 ≤ b && b ≤ 90) || (97 ≤ b && b ≤ 122)

/-- A byte that separates words whatever is around it: a control character, a space, one of `( ) , ; < > [ \ ]`, or a
byte that is not ASCII. -/
def isPlainSep (b : Byte) : Bool := (0 < b && b ≤ 32) || b == 40 || b == 41 || b == 44 || b == 59 || b == 60 || b == 62 || b == 91 || b == 92 || b == 93 || 127 ≤ b

/-- No letters or digits between two offsets. -/
def NoWord (text : List Byte) (from' to : Nat) : Prop := ∀ (i : Nat) b, from' ≤ i → i < to → text[i]? = some b → isAlnum b = false

/-- The text of a token that was matched between two offsets: what is left when a few bytes at the
beginning (the protocol of a URL) and at most two at the end are cut, without its dots (if it is an acronym),
and of this at most 254 bytes. -/
def IsTokenOf (text : List Byte) (s e : Nat) (tok : List Byte) : Prop :=
  ∃ k r, k + r ≤ e - s ∧ r ≤ 2 ∧ (let bs := (text.drop (s + k)).take (min (e - s - k - r) 254); tok = bs ∨ tok = bs.filter (fun b => decide (b ≠ 46)))

/-- Tokens `(text, start, end)` cover a text from an offset on: one after the other, each of some bytes of the text
and itself not empty, and no letters or digits between them or after the last. -/
inductive Covers (text : List Byte) : Nat → List (List Byte × Nat × Nat) → Prop where
  | done {q : Nat} : NoWord text q text.length → Covers text q []
  | token {q s e : Nat} {tok : List Byte} {rest : List (List Byte × Nat × Nat)} : q ≤ s → s < e → e ≤ text.length → NoWord text q s →
      IsTokenOf text s e tok → tok ≠ [] → Covers text e rest → Covers text q ((tok, s, e) :: rest)

/-- As `Covers`, but the tokens may end too early, before a match that is left with nothing. -/
inductive CoversUntil (text : List Byte) : Nat → List (List Byte × Nat × Nat) → Prop where
  | done {q : Nat} : NoWord text q text.length → CoversUntil text q []
  | empty {q s e : Nat} : q ≤ s → s < e → e ≤ text.length → NoWord text q s → IsTokenOf text s e [] → CoversUntil text q []
  | token {q s e : Nat} {tok : List Byte} {rest : List (List Byte × Nat × Nat)} : q ≤ s → s < e → e ≤ text.length → NoWord text q s →
      IsTokenOf text s e tok → tok ≠ [] → CoversUntil text e rest → CoversUntil text q ((tok, s, e) :: rest)

end Ferret.Spec
