import Verif.Model.QClean

/-!
The lexer of the query parser: get_word and yylex (c/src/q_parser.y 289–442; the same code stands in the
generated c/src/q_parser.c). A text is the list of the characters before the terminating zero. The lexer has
two buffers of MAX_WORD_SIZE bytes for words, taken in turn, and for longer words a buffer allocated with the
length of the whole text and one byte more, which the next call of get_word frees. A word is handed out with
the kind of its buffer and the number of the call that wrote it: a word in one of the two buffers is intact
until the second next call, a word in the allocated buffer until the next (see `Word.read` in QParse). Writing
behind a buffer is undefined behaviour. `strchr` finds the terminating zero too, so words end at the end of the
text.
-/

namespace Ferret.QP

/-- MAX_WORD_SIZE, c/include/global.h: the length of the two buffers for words (c/include/search.h 914). -/
def maxWordSize : Nat := 255

/-- not_word, q_parser.y 290. -/
def notWord : List Char := " \t()[]{}!\"~^|<>=".toList

/-- What yylex returns: the end (0), the keywords, words, and characters as themselves. -/
inductive Tok where
  | eof | and | or | req | not | word | wild | ch (c : Char)
  deriving DecidableEq, Repr

/-- A token as the parser gets it: `call` whether get_word was called for it, `text` and `dyn` the word and
whether it lies in the allocated buffer. -/
structure LexTok where
  tok : Tok
  call : Bool
  text : List Char
  dyn : Bool
  deriving DecidableEq, Repr

/-- The variables of the loop of get_word: what is written to the buffer (last first), whether it is the
allocated one, and is_wild. -/
structure Wd where
  buf : List Char
  dyn : Bool
  wild : Bool

/-- `*bufp++ = c`: the capacity is MAX_WORD_SIZE, or that of the allocated buffer. -/
def Wd.put (cap : Nat) (w : Wd) (c : Char) : Res Wd :=
  if w.buf.length < (if w.dyn then cap else maxWordSize) then .ok { w with buf := c :: w.buf } else .ub

/-- Switching to the allocated buffer, q_parser.y 349–354. -/
def Wd.grow (w : Wd) : Wd :=
  if !w.dyn && w.buf.length == maxWordSize then { w with dyn := true } else w

/-- The loop of get_word, q_parser.y 318–355; gives what is written and the rest of the text from the
character that ended the word on. -/
def wordLoop (cap : Nat) : Wd → List Char → Res (Wd × List Char)
  | w, [] => .ok (w, [])
  | w, c :: s =>
    if notWord.contains c then .ok (w, c :: s)
    else if c = '\\' then
      match s with
      | [] => do
        let w ← w.put cap '\\'
        return (w.grow, [])
      | d :: s' => do
        let w ← w.put cap d
        wordLoop cap w.grow s'
    else if c = ':' then
      match s with
      | [] => .ok (w, c :: s)
      | d :: s' =>
        if d = ':' then do
          let w ← w.put cap ':'
          let w ← w.put cap ':'
          wordLoop cap w.grow s'
        else .ok (w, c :: s)
    else do
      let w ← w.put cap c
      let w := if c = '*' || c = '?' then { w with wild := true } else w
      wordLoop cap w.grow s

/-- The keywords, q_parser.y 362–369. -/
def keyword (word : List Char) : Option Tok :=
  if word = ['A', 'N', 'D'] then some .and
  else if word = ['N', 'O', 'T'] then some .not
  else if word = ['R', 'E', 'Q'] then some .req
  else if word = ['O', 'R'] then some .or
  else none

/-- get_word, q_parser.y 302–377, for a text of which `qlen` is the whole length, from its first character on;
the terminating zero has to fit as well (360). -/
def getWord (keys : Bool) (qlen : Nat) (s : List Char) : Res (LexTok × List Char) := do
  let (w, rest) ← wordLoop (qlen + 1) ⟨[], false, false⟩ s
  if w.buf.length < (if w.dyn then qlen + 1 else maxWordSize) then
    let word := w.buf.reverse
    match (if keys then keyword word else none) with
    | some t => return (⟨t, true, [], false⟩, rest)
    | none => return (⟨if w.wild then .wild else .word, true, word, w.dyn⟩, rest)
  else .ub

/-- A token that is no word. -/
def plainTok (t : Tok) : LexTok := ⟨t, false, [], false⟩

/-- yylex behind the blanks, q_parser.y 413–441. -/
def lexHere (keys : Bool) (qlen : Nat) : List Char → Res (LexTok × List Char)
  | [] => .ok (plainTok .eof, [])
  | c :: s =>
    if specialChars.contains c then
      if c = '-' || c = '!' then .ok (plainTok .not, s)
      else if c = '+' then .ok (plainTok .req, s)
      else if c = '*' then
        (if s.head? = some ':' then .ok (plainTok (.ch c), s) else getWord keys qlen (c :: s))
      else if c = '?' then getWord keys qlen (c :: s)
      else if c = '&' then
        (if s.head? = some '&' then .ok (plainTok .and, s.tail) else getWord keys qlen (c :: s))
      else if c = '|' then
        (if s.head? = some '|' then .ok (plainTok .or, s.tail) else .ok (plainTok (.ch c), s))
      else .ok (plainTok (.ch c), s)
    else getWord keys qlen (c :: s)

/-- Blanks between tokens, q_parser.y 410–411. -/
def skipBlanks (s : List Char) : List Char := s.dropWhile (fun c => c == ' ' || c == '\t')

/-- yylex, q_parser.y 406–442. -/
def yylex (keys : Bool) (qlen : Nat) (s : List Char) : Res (LexTok × List Char) :=
  lexHere keys qlen (skipBlanks s)

/-- All tokens of a text, as a parser that reads to the end gets them; `fuel` bounds their number. -/
def lexAll (keys : Bool) (qlen : Nat) : Nat → List Char → Res (List LexTok)
  | 0, _ => .ok []
  | fuel + 1, s => do
    let (t, rest) ← yylex keys qlen s
    if t.tok = .eof then return []
    let ts ← lexAll keys qlen fuel rest
    return t :: ts

end Ferret.QP
