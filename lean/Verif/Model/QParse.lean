import Verif.Model.QLex

/-!
The query parser: the tables and the loop of yyparse (c/src/q_parser.c 472–713, 1340–2020, generated by Bison),
the actions of the grammar (c/src/q_parser.y 225–286, compiled into q_parser.c), the functions they call
(q_parser.y 158–205, 444–468, 500–709, 741–1081) and qp_parse (1309–1365). The field stack is kept, with the
default fields at its bottom, and what an exception leaves on it.

Simplifications. Analysis of a word in a field is a function to the tokens with their position increments
(get_cached_ts, 480–498, for tokenized fields and others). lower_str (716–739) maps characters one by one; the
byte it writes behind the terminating zero is checked. Boosts and similarities stay texts; of `sscanf(…, "%d")`
only the value and whether there is one is modelled (a slop left uninitialised is undefined behaviour). The
order of the bounds of a range is a parameter (q_range.c 121, 158–178). The limit of clauses of a boolean query
over several fields is left out: it would need more than max_clauses (512) fields. Memory is not modelled but
for the buffers of words: a word may be read from a fixed buffer until the second next call of get_word and
from the allocated one until the next; reading it later (overwritten or freed) is undefined behaviour. The
mutex is left out. A failed assert counts as a crash. Stacks grow up to YYMAXDEPTH as in q_parser.c.
-/

namespace Ferret.QP

/-! ### Tables -/

/-- yytranslate, q_parser.c 494–523, for what yylex returns; 2 is an unknown token. -/
def translate : Tok → Nat
  | .eof => 0
  | .word => 3
  | .wild => 4
  | .or => 6
  | .and => 7
  | .not => 8
  | .req => 9
  | .ch c =>
    if c = ':' then 10 else if c = '^' then 12 else if c = '(' then 13 else if c = ')' then 14
    else if c = '~' then 15 else if c = '*' then 16 else if c = '|' then 17 else if c = '"' then 18
    else if c = '<' then 19 else if c = '>' then 20 else if c = '[' then 21 else if c = ']' then 22
    else if c = '}' then 23 else if c = '{' then 24 else if c = '=' then 25 else 2

/-- yyr1, q_parser.c 597–605. -/
def yyr1 : List Nat :=
  [0, 26, 27, 27, 28, 28, 28, 28, 29, 29, 29, 30, 30, 31, 31, 31, 31, 31, 31, 31, 32, 32, 32, 33, 35, 34, 36,
   37, 34, 38, 38, 39, 39, 39, 39, 40, 40, 40, 40, 40, 41, 41, 41, 41, 41, 41, 41, 41, 41, 41, 41, 41]

/-- yyr2, q_parser.c 608–616. -/
def yyr2 : List Nat :=
  [0, 2, 0, 1, 1, 3, 3, 2, 2, 2, 1, 1, 3, 1, 2, 3, 1, 1, 1, 1, 1, 3, 2, 1, 0, 4, 0, 0, 5, 1, 3, 3, 5, 2, 4, 1,
   2, 2, 3, 3, 4, 4, 4, 4, 3, 3, 3, 3, 2, 3, 3, 2]

/-- yydefact, q_parser.c 621–631. -/
def yydefact : List Nat :=
  [2, 20, 23, 0, 0, 0, 26, 0, 0, 0, 0, 0, 0, 3, 4, 10, 11, 13, 19, 16, 0, 17, 18, 22, 9, 8, 14, 0, 0, 35, 33, 0,
   0, 48, 0, 51, 0, 0, 0, 1, 0, 0, 7, 0, 0, 0, 21, 15, 0, 0, 36, 37, 0, 31, 0, 45, 44, 49, 50, 0, 46, 0, 47, 6,
   5, 12, 24, 30, 27, 34, 39, 0, 38, 40, 41, 42, 43, 25, 28, 32]

/-- yydefgoto, q_parser.c 634–638; −1 of the first entry is left as 80, no state. -/
def yydefgoto : List Nat := [80, 12, 13, 14, 15, 16, 17, 18, 19, 77, 28, 78, 20, 21, 32, 22]

/-- yypact, q_parser.c 643–653. -/
def yypact : List Int :=
  [83, -4, -30, 102, 102, 64, -30, 7, -2, -1, 6, 15, 31, 45, -30, -30, 29, -30, -30, -30, -5, -30, -30, 40, -30,
   -30, -30, 26, 47, -30, 55, 42, 19, -15, 68, -30, 71, 0, 1, -30, 83, 83, -30, 72, 102, 73, -30, -30, 102, 76,
   -30, -30, 78, 74, 70, -30, -30, -30, -30, -6, -30, 33, -30, -30, -30, -30, -30, -30, -30, -30, -30, 90, -30,
   -30, -30, -30, -30, -30, -30, -30]

/-- yypgoto, q_parser.c 656–660. -/
def yypgoto : List Int := [-30, -30, 89, -13, 56, -29, -30, -30, -30, -30, -30, -30, -30, -30, -30, -30]

/-- yytable, q_parser.c 667–682. -/
def yytable : List Int :=
  [42, 33, 35, 59, 61, 44, -29, 55, 56, 37, 29, 23, 45, -29, 42, 66, 73, 74, 38, 68, 60, 62, 51, 34, 36, 30, 31,
   63, 64, 1, 2, 39, 40, 41, 3, 4, 52, 53, 54, 5, 47, 43, 6, 46, 7, 8, 9, 10, 1, 2, 11, 40, 41, 3, 4, 75, 76, 48,
   5, 24, 25, 6, 50, 7, 8, 9, 10, 1, 2, 11, 49, 57, 3, 4, 58, 65, 67, 5, 26, 69, 6, 70, 7, 8, 9, 10, 1, 2, 11,
   71, 72, 3, 4, 79, 27, 0, 5, 0, 0, 6, 0, 7, 8, 9, 10, 1, 2, 11, 0, 0, 0, 0, 0, 0, 0, 5, 0, 0, 6, 0, 7, 8, 9,
   10, 0, 0, 11]

/-- yycheck, q_parser.c 684–699. -/
def yycheck : List Int :=
  [13, 3, 3, 3, 3, 10, 10, 22, 23, 3, 3, 15, 17, 17, 27, 44, 22, 23, 3, 48, 20, 20, 3, 25, 25, 18, 19, 40, 41, 3,
   4, 0, 6, 7, 8, 9, 17, 18, 19, 13, 14, 12, 16, 3, 18, 19, 20, 21, 3, 4, 24, 6, 7, 8, 9, 22, 23, 10, 13, 3, 4,
   16, 20, 18, 19, 20, 21, 3, 4, 24, 15, 3, 8, 9, 3, 3, 3, 13, 14, 3, 16, 3, 18, 19, 20, 21, 3, 4, 24, 15, 20, 8,
   9, 3, 5, -1, 13, -1, -1, 16, -1, 18, 19, 20, 21, 3, 4, 24, -1, -1, -1, -1, -1, -1, -1, 13, -1, -1, 16, -1, 18,
   19, 20, 21, -1, -1, 24]

/-! ### Queries -/

/-- A field. -/
abbrev Fld := List Char

/-- BCType, c/include/search.h. -/
inductive Occ where
  | should | must | mustNot
  deriving DecidableEq, Repr

/-- The queries the parser builds. A boost replaces the boost of the query. -/
inductive Qry where
  | term (f : Fld) (w : List Char)
  | phrase (f : Fld) (ps : List (Nat × List (List Char))) (slop : Int)
  | multi (f : Fld) (ws : List (List Char))
  | fuzzy (f : Fld) (w : List Char) (sim : Option (List Char))
  | wild (f : Fld) (p : List Char)
  | pre (f : Fld) (p : List Char)
  | all
  | range (f : Fld) (lo hi : Option (List Char)) (incLo incHi : Bool)
  | bool (cs : List (Occ × Qry)) (noCoord : Bool)
  | boost (b : List Char) (q : Qry)
  deriving Repr

/-- The parser's settings (QParser, c/include/search.h 898–935), the analyzer, and the order of bounds. -/
structure Cfg where
  toks : Fld → List Char → List (List Char × Nat)
  tokenized : Fld → Bool
  lower : Char → Char
  inOrder : List Char → List Char → Bool
  allFields : List Fld
  defFields : List Fld
  orDefault : Bool
  wildLower : Bool
  clean : Bool
  handleErrors : Bool
  anyFields : Bool
  keywords : Bool

/-- A word on the stack of the parser: its text, whether it lies in the allocated buffer, and the number of
the call of get_word that wrote it. -/
structure Word where
  text : List Char
  dyn : Bool
  serial : Nat

/-- Reading a word after `now` calls of get_word (q_parser.y 307–314: two buffers in turn, the allocated one
freed by the next call). -/
def Word.read (now : Nat) (w : Word) : Res (List Char) :=
  if now ≤ (if w.dyn then w.serial else w.serial + 1) then .ok w.text else .ub

/-- Phrase, q_parser.y 95–100. -/
structure Ph where
  ps : List (Nat × List (List Char))
  inc : Nat

/-! ### Functions called by the actions -/

/-- get_bool_q, q_parser.y 505–538. -/
def getBoolQ : List (Occ × Qry) → Option Qry
  | [] => none
  | [(o, q)] => if o = .mustNot then some (.bool [(.mustNot, q), (.must, .all)] false) else some q
  | cs => some (.bool cs false)

/-- first_cls, q_parser.y 558–567. -/
def firstCls (c : Option (Occ × Qry)) : List (Occ × Qry) := c.toList

/-- Setting a clause to MUST unless it is prohibited, q_parser.y 579–585. -/
def demand (c : Occ × Qry) : Occ × Qry := if c.1 = .mustNot then c else (.must, c.2)

/-- add_and_cls, q_parser.y 575–589. -/
def addAnd (cs : List (Occ × Qry)) : Option (Occ × Qry) → List (Occ × Qry)
  | none => cs
  | some c => (match cs with | [c0] => [demand c0] | cs => cs) ++ [demand c]

/-- add_or_cls, q_parser.y 594–600. -/
def addOr (cs : List (Occ × Qry)) (c : Option (Occ × Qry)) : List (Occ × Qry) := cs ++ c.toList

/-- add_default_cls, q_parser.y 606–616. -/
def addDefault (cfg : Cfg) (cs : List (Occ × Qry)) (c : Option (Occ × Qry)) : List (Occ × Qry) :=
  if cfg.orDefault then addOr cs c else addAnd cs c

/-- get_bool_cls, q_parser.y 634–642. -/
def getBoolCls (q : Option Qry) (o : Occ) : Option (Occ × Qry) := q.map (fun q => (o, q))

/-- phq_add_term, q_phrase.c 1176–1187, with increments instead of positions. -/
def phqAdd (ps : List (Nat × List (List Char))) (t : List Char) (inc : Nat) : List (Nat × List (List Char)) :=
  ps ++ [(if ps.isEmpty then 0 else inc, [t])]

/-- phq_append_multi_term, q_phrase.c 1189–1200. -/
def phqAppend (ps : List (Nat × List (List Char))) (t : List Char) : List (Nat × List (List Char)) :=
  if ps.isEmpty then phqAdd ps t 0 else ps.dropLast ++ ps.getLast?.toList.map (fun p => (p.1, p.2 ++ [t]))

/-- The loop of get_term_q, q_parser.y 670–679. -/
def termLoop : List (List Char × Nat) → List (Nat × List (List Char)) → Int →
    List (Nat × List (List Char)) × Int
  | [], ps, slop => (ps, slop)
  | (t, inc) :: ts, ps, slop =>
    if inc ≠ 0 then termLoop ts (phqAdd ps t inc) (slop + 1) else termLoop ts (phqAppend ps t) slop

/-- get_term_q, q_parser.y 652–683. -/
def getTermQ (cfg : Cfg) (f : Fld) (word : List Char) : Option Qry :=
  match cfg.toks f word with
  | [] => none
  | [(t, _)] => some (.term f t)
  | (t, _) :: ts =>
    let (ps, slop) := termLoop ts (phqAdd [] t 0) 0
    some (.phrase f ps slop)

/-- get_fuzzy_q, q_parser.y 690–710. -/
def getFuzzyQ (cfg : Cfg) (f : Fld) (word : List Char) (sim : Option (List Char)) : Option Qry :=
  match cfg.toks f word with
  | [] => none
  | (t, _) :: _ => some (.fuzzy f t sim)

/-- lower_str, q_parser.y 716–739: one byte behind the terminating zero is written. -/
def lowerStr (cfg : Cfg) (qlen : Nat) (dyn : Bool) (s : List Char) : Res (List Char) :=
  if s.length + 1 < (if dyn then qlen + 1 else maxWordSize) then .ok (s.map cfg.lower) else .ub

/-- The condition of q_parser.y 757–758 and 1052–1053. -/
def lowers (cfg : Cfg) (f : Fld) : Bool := cfg.wildLower && cfg.tokenized f

/-- get_wild_q, q_parser.y 750–789; the pattern stays changed. -/
def getWildQ (cfg : Cfg) (qlen : Nat) (dyn : Bool) (f : Fld) (pat : List Char) : Res (Option Qry × List Char) := do
  let pat ← if lowers cfg f then lowerStr cfg qlen dyn pat else .ok pat
  if pat = ['*'] then return (some .all, pat)
  if pat.getLast? = some '*' ∧ ¬ pat.dropLast.any (fun c => c == '*' || c == '?') then
    return (some (.pre f pat.dropLast), pat)
  return (some (.wild f pat), pat)

/-- A bound of a range: its text and the kind of its buffer. -/
abbrev Bound := Option (List Char × Bool)

/-- lower_str on a bound that is there. -/
def lowerBound (cfg : Cfg) (qlen : Nat) : Bound → Res Bound
  | none => .ok none
  | some (s, dyn) => do
    let s ← lowerStr cfg qlen dyn s
    return some (s, dyn)

/-- get_r_q, q_parser.y 1048–1081, with range_new, q_range.c 101–134; the bounds stay changed. -/
def getRQ (cfg : Cfg) (qlen : Nat) (f : Fld) (lo hi : Bound) (incLo incHi : Bool) :
    Res (Option Qry × Bound × Bound) := do
  let lo ← if lowers cfg f then lowerBound cfg qlen lo else .ok lo
  let hi ← if lowers cfg f then lowerBound cfg qlen hi else .ok hi
  if lo.isNone && hi.isNone then .raise .arg
  else if incLo && lo.isNone then .raise .arg
  else if incHi && hi.isNone then .raise .arg
  else
    match lo, hi with
    | some (l, _), some (h, _) =>
      if cfg.inOrder l h then return (some (.range f (some l) (some h) incLo incHi), lo, hi) else .raise .arg
    | _, _ => return (some (.range f (lo.map Prod.fst) (hi.map Prod.fst) incLo incHi), lo, hi)

/-- add_field, q_parser.y 794–801: the fields on top of the stack get one more, if it is allowed and new. -/
def addField (cfg : Cfg) (f : Fld) (fs : List Fld) : List Fld :=
  if cfg.anyFields || cfg.allFields.contains f then (if fs.contains f then fs else fs ++ [f]) else fs

/-- ph_first_word, q_parser.y 843–852. -/
def phFirst : Option (List Char) → Ph
  | none => ⟨[], 0⟩
  | some w => ⟨[(0, [w])], 0⟩

/-- ph_add_word, q_parser.y 857–877. -/
def phAdd (ph : Ph) : Option (List Char) → Ph
  | none => { ph with inc := ph.inc + 1 }
  | some w => ⟨ph.ps ++ [(ph.inc, [w])], 0⟩

/-- ph_add_multi_word, q_parser.y 883–892: without a position yet the word is added at index −1. -/
def phMulti (ph : Ph) (w : List Char) : Res Ph :=
  match ph.ps.getLast? with
  | none => .ub
  | some p => .ok { ph with ps := ph.ps.dropLast ++ [(p.1, p.2 ++ [w])] }

/-- The digits `sscanf` reads, q_parser.y 980. -/
def digits : List Char → List Char
  | c :: s => if c.isDigit then c :: digits s else []
  | [] => []

/-- The value of digits, as `sscanf` computes it, q_parser.y 980. -/
def digitsValue (s : List Char) : Nat := s.foldl (fun n c => n * 10 + (c.toNat - '0'.toNat)) 0

/-- `sscanf(s, "%d", …)`, q_parser.y 980: `none` if there is no number or it is none of an `int`. -/
def scanInt (s : List Char) : Option Int :=
  let (neg, s) := match s.dropWhile Char.isWhitespace with
    | '-' :: s => (true, s)
    | '+' :: s => (false, s)
    | s => (false, s)
  let ds := digits s
  if ds.isEmpty ∨ 2147483647 < digitsValue ds then none
  else some (if neg then - (digitsValue ds : Int) else digitsValue ds)

/-- get_phrase_query for one position of several words, q_parser.y 940–969; gives the words as it leaves them:
replaced by their first tokens, or emptied. -/
def oneSpot (cfg : Cfg) (f : Fld) (ws : List (List Char)) : Option Qry × List (List Char) :=
  let ws' := ws.map (fun w => match cfg.toks f w with | [] => [] | (t, _) :: _ => t)
  let ts := ws.filterMap (fun w => (cfg.toks f w).head?.map Prod.fst)
  match ts with
  | [] => (some (.bool [] false), ws')
  | [t] => (some (.term f t), ws')
  | _ => (some (.multi f (ws'.filter (fun w => !w.isEmpty))), ws')

/-- The tokens of a position of one word, q_parser.y 993–1004. -/
def spotLoop : List (List Char × Nat) → Nat → List (Nat × List (List Char)) → Int →
    Nat × List (Nat × List (List Char)) × Int
  | [], inc, ps, slop => (inc, ps, slop)
  | (t, i) :: ts, inc, ps, slop =>
    if i ≠ 0 then spotLoop ts 0 (phqAdd ps t (if inc ≠ 0 then inc else i)) slop
    else spotLoop ts 0 (phqAppend ps t) (slop + 1)

/-- The tokens of a position of several words, q_parser.y 1007–1022. -/
def spotMulti (cfg : Cfg) (f : Fld) : List (List Char) → Bool → Nat → List (Nat × List (List Char)) →
    Nat × List (Nat × List (List Char))
  | [], _, inc, ps => (inc, ps)
  | w :: ws, added, inc, ps =>
    match cfg.toks f w with
    | [] => spotMulti cfg f ws added inc ps
    | (t, i) :: _ =>
      if !added then spotMulti cfg f ws true 0 (phqAdd ps t (if inc ≠ 0 then inc else i))
      else spotMulti cfg f ws true inc (phqAppend ps t)

/-- The loop over positions, q_parser.y 984–1024. -/
def spots (cfg : Cfg) (f : Fld) : List (Nat × List (List Char)) → Nat → List (Nat × List (List Char)) → Int →
    List (Nat × List (List Char)) × Int
  | [], _, ps, slop => (ps, slop)
  | (p, ws) :: rest, inc, ps, slop =>
    let slop := if inc ≠ 0 then slop + 1 else slop
    let inc := inc + p + 1
    match ws with
    | [w] =>
      let (inc, ps, slop) := spotLoop (cfg.toks f w) inc ps slop
      spots cfg f rest inc ps slop
    | ws =>
      let (inc, ps) := spotMulti cfg f ws false inc ps
      spots cfg f rest inc ps slop

/-- get_phrase_query, q_parser.y 922–1027; the words of a single position stay changed. -/
def getPhraseQuery (cfg : Cfg) (f : Fld) (ph : Ph) (slop : Option (List Char)) : Res (Option Qry × Ph) :=
  match ph.ps with
  | [] => .ok (none, ph)
  | [(_, [w])] => .ok (getTermQ cfg f w, ph)
  | [(p, ws)] =>
    let (q, ws') := oneSpot cfg f ws
    .ok (q, { ph with ps := [(p, ws')] })
  | ps => do
    let s ← match slop with
      | none => .ok 0
      | some t => Res.ofOption (scanInt t)
    let (out, s) := spots cfg f ps 0 [] s
    return (some (.phrase f out s), ph)

/-- The loop of FLDS over several fields, q_parser.y 176–184; what the function changes in place is `a`. -/
def fldsLoop {α : Type} (func : Fld → α → Res (Option Qry × α)) : List Fld → α → List (Occ × Qry) →
    Res (List (Occ × Qry))
  | [], _, cs => .ok cs
  | f :: fs, a, cs => do
    let (q, a) ← func f a
    fldsLoop func fs a (cs ++ (q.map (fun q => (Occ.should, q))).toList)

/-- FLDS, q_parser.y 165–195. -/
def flds {α : Type} (fields : List Fld) (func : Fld → α → Res (Option Qry × α)) (a : α) : Res (Option Qry) :=
  match fields with
  | [] => .ok none
  | [f] => do
    let (q, _) ← func f a
    return q
  | fs => do
    let cs ← fldsLoop func fs a []
    return if cs.isEmpty then none else some (.bool cs false)

/-! ### The parser -/

/-- Semantic values. -/
inductive Val where
  | none
  | word (w : Word)
  | q (q : Option Qry)
  | cls (c : Option (Occ × Qry))
  | clss (cs : List (Occ × Qry))
  | phrase (ph : Ph)

/-- The state of yyparse: the stack of states and values (top first), the look-ahead token and its value, the
text behind it, the number of calls of get_word, the field stack, and qp->result. -/
structure PS where
  stack : List (Nat × Val)
  la : Option (Tok × Val)
  rest : List Char
  calls : Nat
  fields : List (List Fld)
  result : Option Qry

/-- The fields in force. -/
def PS.cur (p : PS) : List Fld := p.fields.headD []

/-- The actions of ranges, q_parser.y 274–285. -/
def rangeAct (cfg : Cfg) (qlen : Nat) (p : PS) (lo hi : Option Word) (incLo incHi : Bool) : Res (Val × PS) := do
  let lo ← match lo with
    | none => .ok none
    | some w => do let t ← w.read p.calls; pure (some (t, w.dyn))
  let hi ← match hi with
    | none => .ok none
    | some w => do let t ← w.read p.calls; pure (some (t, w.dyn))
  let q ← flds p.cur (fun f (a : Bound × Bound) => do
    let (q, l, h) ← getRQ cfg qlen f a.1 a.2 incLo incHi
    return (q, (l, h))) (lo, hi)
  return (.q q, p)

/-- The actions of the grammar, q_parser.y 226–285, by the number of the rule; what they raise is caught and
ends the parse. -/
def act (cfg : Cfg) (qlen : Nat) (rule : Nat) (args : List Val) (p : PS) : Res (Val × PS) :=
  match rule, args with
  | 2, [] => .ok (.q none, { p with result := none })
  | 3, [.clss cs] => .ok (.q (getBoolQ cs), { p with result := getBoolQ cs })
  | 4, [.cls c] => .ok (.clss (firstCls c), p)
  | 5, [.clss cs, _, .cls c] => .ok (.clss (addAnd cs c), p)
  | 6, [.clss cs, _, .cls c] => .ok (.clss (addOr cs c), p)
  | 7, [.clss cs, .cls c] => .ok (.clss (addDefault cfg cs c), p)
  | 8, [_, .q q] => .ok (.cls (getBoolCls q .must), p)
  | 9, [_, .q q] => .ok (.cls (getBoolCls q .mustNot), p)
  | 10, [.q q] => .ok (.cls (getBoolCls q .should), p)
  | 11, [v] => .ok (v, p)
  | 12, [.q q, _, .word w] => do
    let b ← w.read p.calls
    return (.q (q.map (.boost b)), p)
  | 13, [v] => .ok (v, p)
  | 14, [_, _] => .ok (.q (some (.bool [] true)), p)
  | 15, [_, .clss cs, _] => .ok (.q (getBoolQ cs), p)
  | 16, [v] => .ok (v, p)
  | 17, [v] => .ok (v, p)
  | 18, [v] => .ok (v, p)
  | 19, [v] => .ok (v, p)
  | 20, [.word w] => do
    let t ← w.read p.calls
    let q ← flds p.cur (fun f (_ : Unit) => .ok (getTermQ cfg f t, ())) ()
    return (.q q, p)
  | 21, [.word w, _, .word s] => do
    let t ← w.read p.calls
    let s ← s.read p.calls
    let q ← flds p.cur (fun f (_ : Unit) => .ok (getFuzzyQ cfg f t (some s), ())) ()
    return (.q q, p)
  | 22, [.word w, _] => do
    let t ← w.read p.calls
    let q ← flds p.cur (fun f (_ : Unit) => .ok (getFuzzyQ cfg f t none, ())) ()
    return (.q q, p)
  | 23, [.word w] => do
    let t ← w.read p.calls
    let q ← flds p.cur (fun f a => getWildQ cfg qlen w.dyn f a) t
    return (.q q, p)
  | 24, [] => .ok (.none, { p with fields := p.fields.tail })
  | 25, [_, _, .q q, _] => .ok (.q q, p)
  | 26, [] => .ok (.none, { p with fields := cfg.allFields :: p.fields })
  | 27, [] => .ok (.none, { p with fields := p.fields.tail })
  | 28, [_, _, _, .q q, _] => .ok (.q q, p)
  | 29, [.word w] => do
    let t ← w.read p.calls
    return (.none, { p with fields := addField cfg t [] :: p.fields })
  | 30, [_, _, .word w] => do
    let t ← w.read p.calls
    return (.none, { p with fields := addField cfg t p.cur :: p.fields.tail })
  | 31, [_, .phrase ph, _] => do
    let q ← flds p.cur (fun f a => getPhraseQuery cfg f a none) ph
    return (.q q, p)
  | 32, [_, .phrase ph, _, _, .word s] => do
    let s ← s.read p.calls
    let q ← flds p.cur (fun f a => getPhraseQuery cfg f a (some s)) ph
    return (.q q, p)
  | 33, [_, _] => .ok (.q none, p)
  | 34, [_, _, _, _] => .ok (.q none, p)
  | 35, [.word w] => do
    let t ← w.read p.calls
    return (.phrase (phFirst (some t)), p)
  | 36, [_, _] => .ok (.phrase (phFirst none), p)
  | 37, [.phrase ph, .word w] => do
    let t ← w.read p.calls
    return (.phrase (phAdd ph (some t)), p)
  | 38, [.phrase ph, _, _] => .ok (.phrase (phAdd ph none), p)
  | 39, [.phrase ph, _, .word w] => do
    let t ← w.read p.calls
    let ph ← phMulti ph t
    return (.phrase ph, p)
  | 40, [_, .word a, .word b, _] => rangeAct cfg qlen p (some a) (some b) true true
  | 41, [_, .word a, .word b, _] => rangeAct cfg qlen p (some a) (some b) true false
  | 42, [_, .word a, .word b, _] => rangeAct cfg qlen p (some a) (some b) false true
  | 43, [_, .word a, .word b, _] => rangeAct cfg qlen p (some a) (some b) false false
  | 44, [_, .word b, _] => rangeAct cfg qlen p none (some b) false false
  | 45, [_, .word b, _] => rangeAct cfg qlen p none (some b) false true
  | 46, [_, .word a, _] => rangeAct cfg qlen p (some a) none true false
  | 47, [_, .word a, _] => rangeAct cfg qlen p (some a) none false false
  | 48, [_, .word b] => rangeAct cfg qlen p none (some b) false false
  | 49, [_, _, .word b] => rangeAct cfg qlen p none (some b) false true
  | 50, [_, _, .word a] => rangeAct cfg qlen p (some a) none true false
  | 51, [_, .word a] => rangeAct cfg qlen p (some a) none false false
  | _, _ => .ub

/-- What one turn of the loop of yyparse leads to: another turn, the accepted text, a syntax error (yyerror is
called), a full stack (likewise), or an exception in an action (yyerror is not called). -/
inductive Out where
  | next (p : PS)
  | accept (p : PS)
  | error (p : PS)
  | full (p : PS)
  | failed (p : PS)

/-- YYMAXDEPTH, q_parser.c 983. -/
def maxDepth : Nat := 10000

/-- Entering a state, q_parser.c 1411–1482: the stack may hold YYMAXDEPTH − 1 states. -/
def push (p : PS) (s : Nat) (v : Val) : Out :=
  let p := { p with stack := (s, v) :: p.stack }
  if p.stack.length < maxDepth then .next p else .full p

/-- The state after a reduction, q_parser.c 1825–1831. -/
def goto (s lhs : Nat) : Option Nat := do
  let g ← yypgoto[lhs - 26]?
  let n := g + s
  let d ← yydefgoto[lhs - 26]?
  if 0 ≤ n ∧ n ≤ 126 then
    let c ← yycheck[n.toNat]?
    if c = s then
      let t ← yytable[n.toNat]?
      some t.toNat
    else some d
  else some d

/-- Reducing by a rule, q_parser.c 1559–1833. -/
def reduce (cfg : Cfg) (qlen : Nat) (p : PS) (rule : Nat) : Res Out := do
  if rule = 0 then return .error p
  let len ← Res.ofOption yyr2[rule]?
  let lhs ← Res.ofOption yyr1[rule]?
  if p.stack.length < len + 1 then .ub
  else
    match act cfg qlen rule ((p.stack.take len).reverse.map Prod.snd) p with
    | .ub => .ub
    | .raise _ => .ok (.failed p)
    | .ok (v, p') =>
      let below := p.stack.drop len
      match below with
      | [] => .ub
      | (s, _) :: _ => do
        let t ← Res.ofOption (goto s lhs)
        return push { p' with stack := below } t v

/-- The look-ahead token, read if there is none, q_parser.c 1501–1519. -/
def lookahead (cfg : Cfg) (qlen : Nat) (p : PS) : Res (Tok × Val × PS) :=
  match p.la with
  | some (t, v) => .ok (t, v, p)
  | none => do
    let (t, rest) ← yylex cfg.keywords qlen p.rest
    let calls := if t.call then p.calls + 1 else p.calls
    let v := if t.tok = .word ∨ t.tok = .wild then Val.word ⟨t.text, t.dyn, calls⟩ else .none
    return (t.tok, v, { p with la := some (t.tok, v), rest := rest, calls := calls })

/-- What the tables say in a state at a token, q_parser.c 1521–1533: `none` the default. -/
def action (pact : Int) (tok : Nat) : Option Int :=
  let n := pact + tok
  if 0 ≤ n ∧ n ≤ 126 then
    match yycheck[n.toNat]? with
    | some c => if c = tok then yytable[n.toNat]? else none
    | none => none
  else none

/-- One turn of the loop of yyparse, q_parser.c 1491–1560. -/
def step (cfg : Cfg) (qlen : Nat) (p : PS) : Res Out := do
  match p.stack with
  | [] => .ub
  | (s, _) :: _ =>
    let pact ← Res.ofOption yypact[s]?
    let dflt ← Res.ofOption yydefact[s]?
    if pact = -30 then reduce cfg qlen p dflt
    else do
      let (t, v, p) ← lookahead cfg qlen p
      match action pact (translate t) with
      | none => reduce cfg qlen p dflt
      | some y =>
        if y = 0 ∨ y = -30 then return .error p
        else if y < 0 then reduce cfg qlen p (-y).toNat
        else if y = 39 then return .accept p
        else return push { p with la := none } y.toNat v

/-- How yyparse ends; `loop` if it has not ended after as many turns as allowed. -/
inductive End where
  | accept (p : PS)
  | error (p : PS)
  | failed (p : PS)
  | loop

/-- yyparse, q_parser.c 1340–2020. No rule of the grammar has the error token, so every error ends it. -/
def parse (cfg : Cfg) (qlen : Nat) : Nat → PS → Res End
  | 0, _ => .ok .loop
  | n + 1, p => do
    match ← step cfg qlen p with
    | .next p => parse cfg qlen n p
    | .accept p => return .accept p
    | .error p => return .error p
    | .full p => return .error p
    | .failed p => return .failed p

/-- What qp_parse comes to: a query, a parse error raised, or a crash. -/
inductive Reply where
  | query (q : Qry)
  | parseError
  | crash

/-- qp_get_bad_query, q_parser.y 1314–1321. -/
def badQuery (cfg : Cfg) (s : List Char) : Res (Option Qry) :=
  flds cfg.defFields (fun f (_ : Unit) => .ok (getTermQ cfg f s, ())) ()

/-- The end of qp_parse, q_parser.y 1349–1364, with what yyparse gave; `left` is what is left on the field
stack above its bottom, `bad` whether there was an error. -/
def finishParse (cfg : Cfg) (s : List Char) (left : List (List Fld)) (bad : Bool) (result : Option Qry) :
    Res (List (List Fld) × Reply) :=
  match result with
  | some q => .ok (left, .query q)
  | none =>
    if cfg.handleErrors then
      if left ≠ [] then .ok (left, .crash)
      else do
        let q ← badQuery cfg s
        return (left, .query (q.getD (.bool [] false)))
    else if bad then .ok (left, .parseError)
    else .ok (left, .query (.bool [] false))

/-- The text that is parsed, q_parser.y 1339–1344: the one given, or that text cleaned. -/
def qpText (cfg : Cfg) (text : List Char) : Res (List Char) := if cfg.clean then cleanStr text else .ok text

/-- qp_parse, q_parser.y 1330–1365, on a parser with `left` on its field stack above the bottom: gives what is
left there afterwards. yyerror (449–468) empties it. -/
def qpParse (cfg : Cfg) (fuel : Nat) (left : List (List Fld)) (text : List Char) :
    Res (List (List Fld) × Reply) :=
  if left ≠ [] then .ok (left, .crash)
  else do
    let s ← qpText cfg text
    match ← parse cfg s.length fuel ⟨[(0, .none)], none, s, 0, [cfg.defFields], none⟩ with
    | .loop => .ub
    | .accept p => finishParse cfg s p.fields.dropLast false p.result
    | .error _ => finishParse cfg s [] true none
    | .failed p => finishParse cfg s p.fields.dropLast true none

end Ferret.QP
