import Verif.Model.Basic

/-!
Cleaning the text of a query before parsing it: qp_clean_str (c/src/q_parser.y 1195–1307; the same code stands
in the generated c/src/q_parser.c), which allocates twice the length of the text and one byte more, and writes
into it with no check of its own. A text is a list of characters before the terminating zero; writing behind
the allocation is undefined behaviour. What has been written is kept with the last character first.
-/

namespace Ferret.QP

/-- special_char, q_parser.y 289. -/
def specialChars : List Char := "&:()[]{}!\"~^|<>=*?+-".toList

/-- PHRASE_CHARS, q_parser.y 1195. -/
def phraseChars : List Char := "<>|\"".toList

/-- The variables of the loop of qp_clean_str, q_parser.y 1222–1228: what is written before `nsp` (last first),
`pb`, `br_cnt`, `quote_open`. -/
structure Cl where
  out : List Char
  pb : Option Char
  br : Nat
  quote : Bool

/-- `*nsp++ = c` into an allocation of `cap` bytes. -/
def put (cap : Nat) (out : List Char) (c : Char) : Res (List Char) :=
  if out.length < cap then .ok (c :: out) else .ub

/-- str_insert_char and the `nsp++` after it, q_parser.y 1201–1205, 1264–1265. -/
def insertFront (cap : Nat) (out : List Char) (c : Char) : Res (List Char) :=
  if out.length < cap then .ok (out ++ [c]) else .ub

/-- `nsp--; nsp[-1] = '<'`, q_parser.y 1280–1281. -/
def unescape (out : List Char) : Res (List Char) :=
  match out with
  | _ :: _ :: r => .ok ('<' :: r)
  | _ => .ub

/-- One turn of the loop, q_parser.y 1230–1298. -/
def cleanStep (cap : Nat) (st : Cl) (b : Char) : Res Cl :=
  if st.pb = some '\\' then do
    let out ← if st.quote && phraseChars.contains b then put cap st.out '\\' else .ok st.out
    let out ← put cap out b
    return { st with out := out, pb := some (if b = '\\' then 'r' else b) }
  else if b = '\\' then do
    let out ← if !st.quote then put cap st.out b else .ok st.out
    return { st with out := out, pb := some b }
  else if b = '"' then do
    let out ← put cap st.out b
    return { st with out := out, pb := some b, quote := !st.quote }
  else if b = '(' then do
    let out ← if !st.quote then .ok st.out else put cap st.out '\\'
    let out ← put cap out b
    return { st with out := out, pb := some b, br := if !st.quote then st.br + 1 else st.br }
  else if b = ')' then do
    let out ← if !st.quote then (if st.br = 0 then insertFront cap st.out '(' else .ok st.out)
      else put cap st.out '\\'
    let out ← put cap out b
    return { st with out := out, pb := some b, br := if !st.quote then st.br - 1 else st.br }
  else if b = '>' then do
    let out ← if st.quote then (if st.pb = some '<' then unescape st.out else put cap st.out '\\')
      else .ok st.out
    let out ← put cap out b
    return { st with out := out, pb := some b }
  else do
    let out ← if st.quote && (specialChars.contains b && b != '|') then put cap st.out '\\' else .ok st.out
    let out ← put cap out b
    return { st with out := out, pb := some b }

/-- The loop, q_parser.y 1230–1298. -/
def cleanLoop (cap : Nat) : Cl → List Char → Res Cl
  | st, [] => .ok st
  | st, b :: s => do
    let st ← cleanStep cap st b
    cleanLoop cap st s

/-- The loop that closes the parentheses left open, q_parser.y 1302–1304. -/
def closeAll (cap : Nat) : Nat → List Char → Res (List Char)
  | 0, out => .ok out
  | n + 1, out => do
    let out ← put cap out ')'
    closeAll cap n out

/-- qp_clean_str, q_parser.y 1220–1307; the terminating zero has to fit as well (1305). -/
def cleanStr (s : List Char) : Res (List Char) := do
  let cap := s.length * 2 + 1
  let st ← cleanLoop cap ⟨[], none, 0, false⟩ s
  let out ← if st.quote then put cap st.out '"' else .ok st.out
  let out ← closeAll cap st.br out
  if out.length < cap then .ok out.reverse else .ub

end Ferret.QP
