import Verif.Model.Analysis

/-!
The legacy standard tokenizer: c/src/analysis.c 643–1069 (legacy_std_get_alpha, mb_legacy_std_get_alpha, isnumpunc,
isurlpunc, isurlc, isurlxatpunc, isurlxatc, legacy_std_is_tok_char, mb_legacy_std_is_tok_char, legacy_std_get_number,
legacy_std_get_apostrophe, mb_legacy_std_get_apostrophe, std_get_url, legacy_std_get_company_name,
legacy_std_advance_to_start, mb_legacy_std_advance_to_start, legacy_std_next, and the two constructors).

A text is the bytes before its terminating zero, a pointer into it the number of bytes before it; a scan from a pointer
is a function of the bytes from there, and ends at the end of the text because no predicate it asks holds of zero.
`<ctype.h>` and `<wctype.h>` are parameters; `isalnum` is `isalpha` or a digit. The array `token` of 256 bytes is
represented by what it holds: always bytes of the text, so only where it is written is kept track of. A read before the
first byte of the text and a write after the array are `.ub`. Lines 997–999 are left out: `t` and `num_end` are never
before `ts->t`. `int` does not overflow.
-/

namespace Ferret.Ana
open Ferret Ferret.Spec

/-- isdigit. -/
def isDigitB (b : Byte) : Bool := 48 ≤ b && b ≤ 57

/-- isalnum. -/
def Loc.isAlnum (L : Loc) (b : Byte) : Bool := L.isAlpha b || isDigitB b

/-- isnumpunc, analysis.c 678–682, and w_isnumpunc, 684–688: . , \ / _ -. -/
def isNumPunc (b : Byte) : Bool := b == 46 || b == 44 || b == 92 || b == 47 || b == 95 || b == 45

/-- isurlpunc, analysis.c 690–693: . / - _. -/
def isUrlPunc (b : Byte) : Bool := b == 46 || b == 47 || b == 45 || b == 95

/-- isurlc, analysis.c 695–698. -/
def isUrlC (L : Loc) (b : Byte) : Bool := isUrlPunc b || L.isAlnum b

/-- isurlxatpunc, analysis.c 700–703: . / - _ @. -/
def isXatPunc (b : Byte) : Bool := isUrlPunc b || b == 64

/-- isurlxatc, analysis.c 705–709. -/
def isXatC (L : Loc) (b : Byte) : Bool := isXatPunc b || L.isAlnum b

/-- What the single-byte and the multi-byte tokenizer do differently, LegacyStandardTokenizer, analysis.h 86–93: each
function is given the bytes from its pointer on. -/
structure LegacyOps where
  /-- advance_to_start: how many bytes are skipped; none when it returns false. -/
  advance : List Byte → Option Nat
  /-- get_alpha: what it returns. -/
  alpha : List Byte → Nat
  /-- is_tok_char. -/
  isTok : List Byte → Bool
  /-- get_apostrophe. -/
  apos : List Byte → Nat

/-- The number of bytes a `while` loop over a predicate passes. -/
def runLen (p : Byte → Bool) (s : List Byte) : Nat := (s.takeWhile p).length

/-- The loop of legacy_std_advance_to_start, analysis.c 855–858. -/
def legacySkip (L : Loc) : List Byte → Nat
  | [] => 0
  | b :: bs =>
    if L.isAlnum b then 0
    else if isNumPunc b && (bs.head?.any isDigitB) then 0
    else legacySkip L bs + 1

/-- legacy_std_is_tok_char, analysis.c 711–721: also & @ ' and :. -/
def legacyIsTok (L : Loc) : List Byte → Bool
  | [] => false
  | b :: _ => !L.isSpace b && (L.isAlnum b || isNumPunc b || b == 38 || b == 64 || b == 39 || b == 58)

/-- legacy_standard_tokenizer_new, analysis.c 1047–1057: legacy_std_get_alpha, 643–654, returns the length of the run (it
writes its first 255 bytes at most); legacy_std_get_apostrophe, 784–793. -/
def LegacyOps.ascii (L : Loc) : LegacyOps where
  advance s := if legacySkip L s < s.length then some (legacySkip L s) else none
  alpha s := runLen L.isAlnum s
  isTok := legacyIsTok L
  apos s := runLen (fun b => L.isAlpha b || b == 39) s

/-- `while (wchr != 0 && p(wchr)) { t += i; i = mb_next_char(…); }`, analysis.c 665–668, 804–807: the bytes passed. Each
character takes a byte at least, so there are as many steps at most. -/
def mbRun (M : MbLoc) (p : Nat → Bool) : Nat → List Byte → Nat
  | 0, _ => 0
  | f + 1, s =>
    let c := mbNextChar M s
    if c.1 ≠ 0 && p c.1 then c.2 + mbRun M p f (s.drop c.2) else 0

/-- The loop of mb_legacy_std_advance_to_start, analysis.c 873–877; none when it ends at a zero character. -/
def mbSkip (M : MbLoc) (alnum : Nat → Bool) : Nat → List Byte → Option Nat
  | 0, _ => none
  | f + 1, s =>
    let c := mbNextChar M s
    if c.1 = 0 then none
    else if alnum c.1 then some 0
    else if (s.head?.any isNumPunc) && (s.tail.head?.any isDigitB) then some 0
    else (mbSkip M alnum f (s.drop c.2)).map (c.2 + ·)

/-- mb_legacy_std_is_tok_char, analysis.c 723–741; at the end mbrtowc gives the zero character. -/
def mbIsTok (M : MbLoc) (alnum : Nat → Bool) (s : List Byte) : Bool :=
  if s = [] then false else
  match M.decode s with
  | none => false
  | some (w, _) => !M.isSpace w && (alnum w || w == 46 || w == 44 || w == 92 || w == 47 || w == 95 || w == 45 ||
      w == 38 || w == 64 || w == 39 || w == 58)

/-- mb_legacy_standard_tokenizer_new, analysis.c 1059–1069. mb_legacy_std_get_alpha, 656–676: a run of more than 255 bytes is
cut to 254; the loop of mb_legacy_std_get_apostrophe, 795–809, has no test for zero, which is no letter. -/
def LegacyOps.mb (M : MbLoc) (alnum : Nat → Bool) : LegacyOps where
  advance s := mbSkip M alnum (s.length + 1) s
  alpha s :=
    let n := mbRun M alnum (s.length + 1) s
    if 255 < n then 254 else n
  isTok := mbIsTok M alnum
  apos s := mbRun M (fun w => M.isAlpha w || w == 39) (s.length + 1) s

/-- The loops of legacy_std_get_number, analysis.c 755–775, as one: `count`, and whether a digit was seen. -/
def numScan (L : Loc) : List Byte → (i count : Nat) → (last : Int) → (seen : Bool) → Nat × Bool
  | [], i, count, last, seen => (if 0 ≤ last - 1 then i else count, seen)
  | b :: bs, i, count, last, seen =>
    if L.isAlnum b then
      numScan L bs (i + 1) count (if last < 2 ∧ isDigitB b then 2 else last) (seen || isDigitB b)
    else if !isNumPunc b || !(bs.head?.any L.isAlnum) then (if 0 ≤ last - 1 then i else count, seen)
    else if 0 ≤ last - 1 then numScan L bs (i + 1) i (last - 1) seen
    else (i, seen)

/-- legacy_std_get_number, analysis.c 748–782. -/
def getNumber (L : Loc) (s : List Byte) : Nat :=
  let r := numScan L s 0 0 2 false
  if r.2 then r.1 else 0

/-- The loop of std_get_url, analysis.c 814–822: the bytes passed; `prev` is `input[i - 1]`. -/
def urlScan (L : Loc) : Byte → List Byte → Nat
  | _, [] => 0
  | prev, b :: bs =>
    if !isUrlC L b then 0
    else if isUrlPunc b && isUrlPunc prev then 0
    else urlScan L b bs + 1

/-- The length of a text without the bytes at its end of which `p` holds. -/
def stripLen (p : Byte → Bool) (s : List Byte) : Nat := (s.reverse.dropWhile p).length

/-- std_get_url, analysis.c 811–838, with `input` at offset `base` of the text: the length of the token, which is the
first bytes of `input`, and the offset of `next`. Stripping everything would go on before `input`. -/
def getUrl (L : Loc) (text : List Byte) (base i : Nat) : Res (Nat × Nat) :=
  if base + i = 0 then .ub else
  Res.ofOption text[base + i - 1]? >>= fun prev =>
    let n := i + urlScan L prev (text.drop (base + i))
    let m := if 255 ≤ n then 254 else n
    let len := stripLen isUrlPunc ((text.drop base).take m)
    if len = 0 then .ub else .ok (len, base + n)

/-- legacy_std_get_company_name, analysis.c 842–850. -/
def companyLen (L : Loc) (s : List Byte) : Nat := runLen (fun b => L.isAlpha b || b == 64 || b == 38) s

/-- What `next` gives: the token and `ts->t`. -/
abbrev LegacyOut := Res (Option (Token × Nat))

/-- The token of a part of the text, and the stream after it. -/
def giveTs (text : List Byte) (start stop : Nat) : LegacyOut := .ok (some (tkSetTs text start stop 1, stop))

/-- The apostrophe case of legacy_std_next, analysis.c 910–930, with `t` after what get_apostrophe passed: a possessive
is stripped from the text of the token, not from where it ends. -/
def aposCase (text : List Byte) (start t : Nat) : LegacyOut :=
  if t < 2 then .ub else
  Res.ofOption text[t - 1]? >>= fun a => Res.ofOption text[t - 2]? >>= fun b =>
    if (a == 115 || a == 83) && b == 39 then .ok (some ({ tkSetTs text start (t - 2) 1 with stop := t }, t))
    else if a == 39 then .ok (some ({ tkSetTs text start (t - 1) 1 with stop := t }, t))
    else giveTs text start t

/-- "ftp", "http", "https" and "file". -/
def schemes : List (List Byte) := [[102, 116, 112], [104, 116, 116, 112], [104, 116, 116, 112, 115], [102, 105, 108, 101]]

/-- The URL case of legacy_std_next, analysis.c 948–971, where "://" is at `start + n`: `n` is `token_i`. The comparisons
stop at the zero after the `n` bytes of `token`. -/
def urlCase (L : Loc) (text : List Byte) (start n : Nat) : LegacyOut :=
  if 255 < n then .ub else
  let t := start + n + 3 + runLen (· == 47) (text.drop (start + n + 3))
  if ((text.drop t).head?.any L.isAlpha) && schemes.any (·.isPrefixOf (slice text start (start + n))) then
    getUrl L text t 0 >>= fun r => .ok (some (tkSet ((text.drop t).take r.1) start r.2 1, r.2))
  else if 256 < t - start then .ub
  else getUrl L text start (t - start) >>= fun r => .ok (some (tkSet ((text.drop start).take r.1) start r.2 1, r.2))

/-- The first loop of the last part of legacy_std_next, analysis.c 976–992: the bytes passed, and `is_acronym`; `prev` is
`t[-1]`. -/
def xatScan (L : Loc) : Byte → List Byte → (acro seen : Bool) → Nat × Bool
  | _, [], acro, _ => (0, acro)
  | prev, b :: bs, acro, seen =>
    if !isXatC L b then (0, acro)
    else
      let acro := acro && (L.isAlpha b || b == 46)
      if isXatPunc b && isXatPunc prev then (0, acro)
      else if b == 64 && seen then (0, acro)
      else
        let r := xatScan L b bs acro (seen || b == 64)
        (r.1 + 1, r.2)

/-- The check for an acronym, analysis.c 1003–1008. -/
def acroOk (L : Loc) : List Byte → Bool
  | a :: b :: r => !(L.isAlpha a && b != 46) && acroOk L (b :: r)
  | _ => true

/-- The token of an acronym, analysis.c 1009–1018: the letters after the first `n` bytes are written after them. -/
def acroCase (text : List Byte) (start n t : Nat) : LegacyOut :=
  let letters := (slice text (start + n) t).filter (· != 46)
  if letters ≠ [] ∧ 256 < n + letters.length then .ub
  else .ok (some (tkSet (slice text start (start + n) ++ letters) start t 1, t))

/-- The last part of legacy_std_next, analysis.c 973–1029; `num` is `num_end`. At the beginning of the text, `t[-1]` is
read before it. -/
def longCase (L : Loc) (text : List Byte) (start n : Nat) (num : Option Nat) : LegacyOut :=
  if start + n = 0 then .ub else
  Res.ofOption text[start + n - 1]? >>= fun prev =>
    let r := xatScan L prev (text.drop (start + n)) true false
    let t := start + stripLen isXatPunc (slice text start (start + n + r.1))
    if t = 0 then .ub
    else if num.all (· < t) then
      if r.2 && acroOk L (slice text start t) then acroCase text start n t else giveTs text start t
    else
      match num with
      | some e => giveTs text start e
      | none => .ub

/-- `num_end` of legacy_std_next, analysis.c 938–940. -/
def numEnd (L : Loc) (text : List Byte) (start : Nat) : Option Nat :=
  if (text.drop start).head?.any (fun b => isDigitB b || isNumPunc b) && 0 < getNumber L (text.drop start) then
    some (start + getNumber L (text.drop start))
  else none

/-- legacy_std_next from where the number was looked for, analysis.c 941–1029. -/
def afterNumber (L : Loc) (O : LegacyOps) (text : List Byte) (start n : Nat) (num : Option Nat) : LegacyOut :=
  if num.any (fun e => !O.isTok (text.drop e)) then
    match num with
    | some e => giveTs text start e
    | none => .ub
  else if [58, 47, 47].isPrefixOf (text.drop (start + n)) then urlCase L text start n
  else longCase L text start n num

/-- legacy_std_next, analysis.c 900–1029, after advance_to_start and get_alpha. -/
def fromStart (L : Loc) (O : LegacyOps) (text : List Byte) (start n : Nat) : LegacyOut :=
  let s := text.drop (start + n)
  if !O.isTok s then giveTs text start (start + n)
  else if s.head? = some 39 then aposCase text start (start + n + O.apos s)
  else if s.head? = some 38 then giveTs text start (start + n + companyLen L s)
  else afterNumber L O text start n (numEnd L text start)

/-- legacy_std_next, analysis.c 882–1030; `off` is `ts->t`. -/
def legacyNext (L : Loc) (O : LegacyOps) (text : List Byte) (off : Nat) : LegacyOut :=
  match O.advance (text.drop off) with
  | none => .ok none
  | some k => fromStart L O text (off + k) (O.alpha (text.drop (off + k)))

/-- The tokens of a text. -/
def legacyTokens (L : Loc) (O : LegacyOps) (text : List Byte) : Res (List Token) :=
  drain (legacyNext L O text) (text.length + 1) 0

end Ferret.Ana
