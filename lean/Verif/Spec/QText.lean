/-!
How the text of a query reads: which characters are escaped, which lie inside a quoted phrase, and how deep
the parentheses are nested. A text is a list of characters; a character stands for a C `char`, and the text
for what stands before the terminating zero.
-/

namespace Ferret.Spec

/-- The characters that mean something in a query. -/
def qSpecial : List Char :=
  ['&', ':', '(', ')', '[', ']', '{', '}', '!', '"', '~', '^', '|', '<', '>', '=', '*', '?', '+', '-']

/-- Where a reader of a query is: just after a backslash that escapes the next character or not, and inside a
quoted phrase or not. -/
abbrev QMode := Bool × Bool

/-- Reading one more character. -/
def QMode.next (m : QMode) (c : Char) : QMode :=
  if m.1 then (false, m.2)
  else if c = '\\' then (true, m.2)
  else if c = '"' then (false, !m.2)
  else m

/-- Where a reader is after a text. -/
def qMode (s : List Char) : QMode := s.foldl QMode.next (false, false)

/-- Reading one more character at a depth of open parentheses; `none` for a parenthesis that closes nothing.
Escaped parentheses and those inside quotes do not count. -/
def qDepth (m : QMode) (d : Nat) (c : Char) : Option Nat :=
  if m = (false, false) then
    if c = '(' then some (d + 1)
    else if c = ')' then (if d = 0 then none else some (d - 1))
    else some d
  else some d

/-- Reading a text from a place and a depth on. -/
def qRead : QMode → Nat → List Char → Option (QMode × Nat)
  | m, d, [] => some (m, d)
  | m, d, c :: s => match qDepth m d c with
    | some d' => qRead (m.next c) d' s
    | none => none

/-- Every quote and every parenthesis of the text is matched. -/
def QBalanced (s : List Char) : Prop := ∃ e, qRead (false, false) 0 s = some ((e, false), 0)

/-- Inside quotes, every character that would mean something is escaped, but for the marks of a phrase: the
quote itself, a bar, and `<` `>` side by side. -/
def QQuiet (s : List Char) : Prop :=
  ∀ a c b, s = a ++ c :: b → qMode a = (false, true) → c ∈ qSpecial →
    c = '"' ∨ c = '|' ∨ (c = '<' ∧ b.head? = some '>') ∨ (c = '>' ∧ a.getLast? = some '<')

/-- The text does not end in a backslash that escapes nothing. -/
def QWhole (s : List Char) : Prop := (qMode s).1 = false

/-- No backslash stands inside quotes to escape another. -/
def QNoSlashes (s : List Char) : Prop :=
  ∀ a b, s = a ++ '\\' :: '\\' :: b → qMode a ≠ (false, true)

/-- No backslash stands inside quotes to escape anything. -/
def QNoEscapes (s : List Char) : Prop :=
  ∀ a b, s = a ++ '\\' :: b → qMode a ≠ (false, true)

/-- The text without backslashes, parentheses and quotes. -/
def qWords (s : List Char) : List Char := s.filter (fun c => !(['\\', '(', ')', '"'].contains c))

/-- The characters that end a word of a query. -/
def qEnds : List Char := [' ', '\t', '(', ')', '[', ']', '{', '}', '!', '"', '~', '^', '|', '<', '>', '=']

/-- How a word of a query is written: characters for themselves, escaped characters, and pairs of colons. -/
inductive QPiece where
  | plain (c : Char)
  | esc (c : Char)
  | colons
  deriving DecidableEq, Repr

/-- What is written. -/
def QPiece.written : QPiece → List Char
  | .plain c => [c]
  | .esc c => ['\\', c]
  | .colons => [':', ':']

/-- What is meant. -/
def QPiece.meant : QPiece → List Char
  | .plain c => [c]
  | .esc c => [c]
  | .colons => [':', ':']

/-- A wild card that is not escaped. -/
def QPiece.wild : QPiece → Bool
  | .plain c => c = '*' || c = '?'
  | _ => false

/-- Characters that stand for themselves inside a word. -/
def QPiece.Ok : QPiece → Prop
  | .plain c => c ∉ qEnds ∧ c ≠ '\\' ∧ c ≠ ':'
  | _ => True

/-- Characters that stand for themselves at the start of a word. -/
def QPiece.StartsWord : QPiece → Prop
  | .plain c => c ∉ qSpecial ∨ c = '?'
  | .esc _ => True
  | .colons => False

/-- A place where a word ends. -/
def QStop (rest : List Char) : Prop :=
  rest = [] ∨ (∃ c r, rest = c :: r ∧ c ∈ qEnds) ∨ (∃ r, rest = ':' :: r ∧ r.head? ≠ some ':')

/-- No two colons side by side. -/
def NoColons (s : List Char) : Prop := ∀ a b, s ≠ a ++ ':' :: ':' :: b

end Ferret.Spec
