import Verif.Model.Basic
import Verif.Spec.Bytes

/-!
The standard scanners that ragel generates (c/src/scanner.c 537–900, c/src/scanner_utf8.c 4046–4420, which
are alike but for their tables and the numbers of their actions): the interpreter of the tables, and
std_next of c/src/analysis.c 562–594.

A text is its bytes before the terminating zero, and a pointer into it an offset; reading beyond the
zero, using a null `ts` or `te` and having too little on the stack are undefined. `char` is signed (as
with c/Makefile) or not (as with c/Rakefile 170, -funsigned-char). `pe` and `eof` are null, so `p` is neither.
That `p` points one before the text for a moment is let pass. What is printed is not modelled.
-/

namespace Ferret.Scan
open Ferret

/-- Where a match ends: `te = p+1`; `te = p; p--`; or `p = te-1`. -/
inductive Place where
  | next | here | back
  deriving DecidableEq, Repr

/-- What an action does. `emit` ends a match, sets `trunc` and `strip_char`, and goes to `ret`; `pass` ends a
match that is no token; `switch` does what is to be done with the pattern `act`. -/
inductive Act where
  | skip
  | trunc
  | call (cs : Nat)
  | tsNull
  | tsHere
  | mark
  | setAct (k : Nat)
  | emit (at' : Place) (trunc : Option Nat) (strip : Bool)
  | stop
  | pass (at' : Place)
  | switch
  deriving DecidableEq, Repr

/-- The tables, scanner.c 25–512. -/
structure Tables where
  actions : List Nat
  keyOffsets : List Nat
  transKeys : List Nat
  singles : List Nat
  ranges : List Nat
  indexOffsets : List Nat
  indicies : List Nat
  targs : List Nat
  tacts : List Nat
  toState : List Nat
  fromState : List Nat

structure Machine where
  tables : Tables
  act : List Act
  case : Nat → Option Act
  start : Nat

/-- The keys of a state, its ranges, and the transition of each, with that of all others at the end. -/
structure Row where
  keys : List Nat
  ranges : List (Nat × Nat)
  cells : List Nat
  deriving DecidableEq

/-- Two by two. -/
def pairs : List Nat → List (Nat × Nat)
  | a :: b :: l => (a, b) :: pairs l
  | _ => []

/-- `_keys`, `_klen` and `_trans` of a state, scanner.c 594–597, 616–620, 639. -/
def rowOf (T : Tables) (cs : Nat) : Option Row :=
  match T.keyOffsets[cs]?, T.singles[cs]?, T.ranges[cs]?, T.indexOffsets[cs]? with
  | some ko, some n, some r, some io =>
    let ks := T.transKeys.drop ko
    some ⟨ks.take n, pairs ((ks.drop n).take (2 * r)), (T.indicies.drop io).take (n + r + 1)⟩
  | _, _, _, _ => none

/-- The search of a key, scanner.c 599–615: `n` keys from number `lo` on. -/
def searchKey (c : Int) : Nat → List Nat → Nat → Nat → Option Nat
  | 0, _, _, _ => none
  | fuel + 1, keys, lo, n =>
    if n = 0 then none
    else
      let mid := lo + (n - 1) / 2
      match keys[mid]? with
      | none => none
      | some k =>
        if c < k then searchKey c fuel keys lo (mid - lo)
        else if c > k then searchKey c fuel keys (mid + 1) (lo + n - (mid + 1))
        else some mid

/-- The search of a range, scanner.c 622–638. -/
def searchRange (c : Int) : Nat → List (Nat × Nat) → Nat → Nat → Option Nat
  | 0, _, _, _ => none
  | fuel + 1, rs, lo, n =>
    if n = 0 then none
    else
      let mid := lo + (n - 1) / 2
      match rs[mid]? with
      | none => none
      | some k =>
        if c < k.1 then searchRange c fuel rs lo (mid - lo)
        else if c > k.2 then searchRange c fuel rs (mid + 1) (lo + n - (mid + 1))
        else some mid

/-- The number of the cell of a row for a character, scanner.c 597–640. -/
def cellOf (r : Row) (c : Int) : Nat :=
  match searchKey c (r.keys.length + 1) r.keys 0 r.keys.length with
  | some i => i
  | none => match searchRange c (r.ranges.length + 1) r.ranges 0 r.ranges.length with
    | some i => r.keys.length + i
    | none => r.keys.length + r.ranges.length

/-- A list of actions: how many, and their numbers, scanner.c 650–651. -/
def codesAt (T : Tables) (o : Nat) : Option (List Nat) :=
  match T.actions[o]? with
  | none => none
  | some n => some ((T.actions.drop (o + 1)).take n)

/-- The state and the actions of a transition, scanner.c 645–651. -/
def transOf (T : Tables) (tr : Nat) : Option (Nat × List Nat) :=
  match T.targs[tr]?, T.tacts[tr]? with
  | some cs, some a => if a = 0 then some (cs, []) else (codesAt T a).map (cs, ·)
  | _, _ => none

/-- `*p` as a char. -/
def charOf (signed : Bool) (b : Byte) : Int := if signed ∧ b.toNat ≥ 128 then (b.toNat : Int) - 256 else b.toNat

/-- A transition from a state, scanner.c 594–651. -/
def delta (T : Tables) (signed : Bool) (cs : Nat) (b : Byte) : Option (Nat × List Nat) :=
  match rowOf T cs with
  | none => none
  | some r => match r.cells[cellOf r (charOf signed b)]? with
    | none => none
    | some tr => transOf T tr

/-- The variables, scanner.c 543–562. -/
structure St where
  cs : Nat
  p : Int
  ts : Option Int
  te : Option Int
  act : Nat
  skip : Int
  trunc : Int
  top : Nat

/-- After an action: the next one, `_again`, `ret` with what is stripped, or the end. -/
inductive Flow where
  | cont (σ : St)
  | again (σ : St)
  | ret (σ : St) (strip : Bool)
  | stop

/-- `te` and `p` at the end of a match. -/
def placed (σ : St) : Place → Res St
  | .next => .ok { σ with te := some (σ.p + 1) }
  | .here => .ok { σ with te := some σ.p, p := σ.p - 1 }
  | .back => Res.ofOption σ.te >>= fun te => .ok { σ with p := te - 1 }

/-- `emit` and `pass`. -/
def finish (σ : St) : Act → Res Flow
  | .emit pl tr strip => placed σ pl >>= fun σ => .ok (.ret (match tr with
    | some r => { σ with trunc := r }
    | none => σ) strip)
  | .pass pl => placed σ pl >>= fun σ => .ok (.cont σ)
  | _ => .ok (.cont σ)

/-- One action, scanner.c 656–834, 586–588, 844–846. A pattern that `switch` has no case for changes nothing. -/
def doAct (M : Machine) (σ : St) : Act → Res Flow
  | .skip => Res.ofOption σ.ts >>= fun ts => .ok (.cont { σ with skip := σ.p - ts })
  | .trunc => .ok (.cont { σ with trunc := 1 })
  | .call cs => if σ.top < 32 then .ok (.again { σ with p := σ.p - 1, top := σ.top + 1, cs := cs }) else .ub
  | .tsNull => .ok (.cont { σ with ts := none })
  | .tsHere => .ok (.cont { σ with ts := some σ.p })
  | .mark => .ok (.cont { σ with te := some (σ.p + 1) })
  | .setAct k => .ok (.cont { σ with act := k })
  | .stop => .ok .stop
  | .switch => match M.case σ.act with
    | some a => finish σ a
    | none => .ok (.cont σ)
  | .emit pl tr strip => finish σ (.emit pl tr strip)
  | .pass pl => finish σ (.pass pl)

def doActs (M : Machine) : St → List Nat → Res Flow
  | σ, [] => .ok (.cont σ)
  | σ, c :: cs => Res.ofOption M.act[c]? >>= fun a => doAct M σ a >>= fun fl =>
    match fl with
    | .cont σ => doActs M σ cs
    | fl => .ok fl

/-- `*p`. -/
def byteAt (text : List Byte) (p : Int) : Res Byte :=
  if p < 0 then .ub
  else if p.toNat = text.length then .ok 0
  else Res.ofOption text[p.toNat]?

/-- The actions of entering or leaving a state, scanner.c 582–592, 840–850. -/
def stateActs (M : Machine) (table : List Nat) (σ : St) : Res St :=
  Res.ofOption table[σ.cs]? >>= fun o => Res.ofOption (codesAt M.tables o) >>= fun cs => doActs M σ cs >>= fun fl =>
  match fl with
  | .cont σ => .ok σ
  | _ => .ub

/-- What a scan gives: where the match starts and ends, and the token. -/
structure Found where
  start : Int
  stop : Int
  text : List Byte
  deriving DecidableEq

/-- The bytes of a text. -/
def bytesOf (text : List Byte) : Nat → Int → Res (List Byte)
  | 0, _ => .ok []
  | n + 1, p => byteAt text p >>= fun b => bytesOf text n (p + 1) >>= fun bs => .ok (b :: bs)

/-- `ret`, scanner.c 875–899: the length is a size_t, so a negative one is more than `out_size`. -/
def retOf (text : List Byte) (outSize : Nat) (σ : St) (strip : Bool) : Res (Option Found) :=
  Res.ofOption σ.ts >>= fun ts => Res.ofOption σ.te >>= fun te =>
  let len := te - ts - σ.skip - σ.trunc
  let n := if len < 0 then outSize else if len > outSize then outSize else len.toNat
  bytesOf text n (ts + σ.skip) >>= fun bs =>
  .ok (some ⟨ts, te, if strip then bs.filter (fun b => decide (b ≠ 46)) else bs⟩)

/-- The loop, scanner.c 581–855. Out of fuel is undefined. State 0 is that of an error. -/
def loop (M : Machine) (signed : Bool) (text : List Byte) (outSize : Nat) : Nat → St → Res (Option Found)
  | 0, _ => .ub
  | fuel + 1, σ =>
    stateActs M M.tables.fromState σ >>= fun σ =>
    byteAt text σ.p >>= fun b =>
    Res.ofOption (delta M.tables signed σ.cs b) >>= fun d =>
    doActs M { σ with cs := d.1 } d.2 >>= fun fl =>
    match fl with
    | .ret σ strip => retOf text outSize σ strip
    | .stop => .ok none
    | .cont σ | .again σ =>
      stateActs M M.tables.toState σ >>= fun σ =>
      if σ.cs = 0 then .ok none else loop M signed text outSize fuel { σ with p := σ.p + 1 }

/-- frt_std_scan from an offset of the text on, scanner.c 537–900. -/
def scan (M : Machine) (signed : Bool) (text : List Byte) (outSize : Nat) (at' : Nat) : Res (Option Found) :=
  loop M signed text outSize ((text.length + 3) * (text.length + 3)) ⟨M.start, at', none, none, 0, 0, 0, 0⟩

/-- A token with its offsets. -/
structure Token where
  text : List Byte
  start : Int
  stop : Int
  deriving DecidableEq

/-- All tokens that std_next gives, analysis.c 562–594: it ends at the first that is empty. `tk->text` has
255 bytes. -/
def tokens (M : Machine) (signed : Bool) (text : List Byte) : Nat → Nat → Res (List Token)
  | 0, _ => .ub
  | fuel + 1, at' =>
    scan M signed text 254 at' >>= fun r =>
    match r with
    | none => .ok []
    | some f =>
      if f.text.length = 0 then .ok []
      else tokens M signed text fuel f.stop.toNat >>= fun ts => .ok (⟨f.text, f.start, f.stop⟩ :: ts)

/-- The tokens of a text: std_next until it gives none, analysis.c 562–594. -/
def allTokens (M : Machine) (signed : Bool) (text : List Byte) : Res (List Token) := tokens M signed text (text.length + 1) 0

end Ferret.Scan
