import Verif.Spec.Bytes

/-!
The multi-mapper: c/src/multimapper.c 15–334 (lstate_new, lstate_next, lstate_is_match, ndstate_add, ndstate_next,
mulmap_new, mulmap_add_mapping, mulmap_process_state, mulmap_compile, mulmap_map_len, mulmap_dynamic_map).

Strings are the bytes before the terminating zero. The array of nondeterministic states keeps its capacity, and
writing past it is undefined behaviour. A set of states, a bit vector in the code, is a number; the hash from sets
to deterministic states is a search through them for the set (bv_eq and bv_hash, C03; the hash, C05). The table
`next[256]` of a deterministic state starts as all `dstates[0]`; it is kept as the list of what was set since. The
recursion of mulmap_process_state has a bound that `processState_ok` shows is never met. mulmap_free_dstates leaves no
automaton: using one then is undefined behaviour, as is using `to` after `erealloc(to, capa)`, whose result the code
drops. Reference counts are not modelled.
-/

namespace Ferret.MultiMap
open Ferret

/-- Mapping, multimapper.h 28–32. -/
structure Mapping where
  pattern : List Byte
  replacement : List Byte
  deriving DecidableEq, Repr

/-- LetterState, multimapper.c 15–21. -/
structure LState where
  c : Int
  val : Int
  mapping : Option (List Byte)
  deriving DecidableEq, Repr

/-- What mulmap_compile builds first, multimapper.c 214–222: the start state (`states[c]` of it, as pairs in the
order they were added), the states after it, and the capacity of `nstates`. -/
structure Nfa where
  first : List (Byte × Nat)
  states : List LState
  capa : Nat
  deriving DecidableEq, Repr

/-- `size` of mulmap_compile, later `nsize`. -/
def Nfa.size (n : Nfa) : Nat := n.states.length + 1

/-- `UCtoI(pattern[j+1])`, multimapper.c 236: the byte after the one at hand, or the terminating zero. -/
def nextByte : List Byte → Int
  | [] => 0
  | b :: _ => b.toNat

/-- The loop of mulmap_compile over one pattern, multimapper.c 233–237. -/
def pushLetters (capa : Nat) : List Byte → List LState → Res (List LState)
  | [], st => .ok st
  | _ :: rest, st =>
    if st.length + 1 < capa then
      pushLetters capa rest (st ++ [⟨nextByte rest, st.length + 2, none⟩])
    else .ub

/-- multimapper.c 238–241: the last letter of a pattern becomes its end. -/
def closeLast (m : Mapping) (st : List LState) : List LState :=
  st.dropLast ++ [⟨-1, -(m.pattern.length : Int), some m.replacement⟩]

/-- One turn of the outer loop of mulmap_compile, multimapper.c 225–242. -/
def addPattern (n : Nfa) (m : Mapping) : Res Nfa :=
  match m.pattern with
  | [] => .ub
  | b :: _ =>
    let first := n.first ++ [(b, n.size)]
    let capa := if n.size + m.pattern.length + 1 ≥ n.capa then n.capa * 4 else n.capa
    pushLetters capa m.pattern n.states >>= fun st => .ok ⟨first, closeLast m st, capa⟩

/-- The outer loop: the mappings given, last to first. -/
def addPatterns : Nfa → List Mapping → Res Nfa
  | n, [] => .ok n
  | n, m :: ms => addPattern n m >>= fun n => addPatterns n ms

/-- `alphabet`, multimapper.c 234 and 243–246: the bytes of the patterns, in order. -/
def alphabet (maps : List Mapping) : List Byte :=
  ((List.range 256).map UInt8.ofNat).filter (fun b => maps.any (fun m => m.pattern.contains b))

/-! ### Deterministic states -/

/-- DeterministicState, multimapper.h 20–26, with the set of states it stands for (its key in `dstates_map`). -/
structure DState where
  set : Nat
  next : List (Byte × Nat)
  longest : Nat
  mapping : Option (List Byte)
  deriving DecidableEq, Repr

/-- `current_state->next[c]`. -/
def DState.go (d : DState) (c : Byte) : Nat :=
  match d.next.find? (fun p => p.1 == c) with
  | some p => p.2
  | none => 0

/-- The states in a set, lowest first: `bv_scan_next` until -1. -/
def bits (size : Nat) (bv : Nat) : List Nat := (List.range size).filter (fun i => bv.testBit i)

/-- `state->next(state, c, next_states)`: ndstate_next (67–72) for the start state, lstate_next (25–34) for the
others. -/
def nextStates (n : Nfa) (c : Byte) (bit : Nat) : Res (List Nat) :=
  match bit with
  | 0 => .ok ((n.first.filter (fun p => p.1 == c)).map (·.2))
  | b + 1 =>
    Res.ofOption n.states[b]? >>= fun s =>
    if (c.toNat : Int) = s.c then
      if s.val < 0 then .ub else .ok [s.val.toNat]
    else .ok []

/-- mulmap_bv_set_states, multimapper.c 155–161. -/
def setStates (bv : Nat) (l : List Nat) : Nat := l.foldl (fun bv i => bv ||| 2 ^ i) bv

/-- The loop of mulmap_process_state over the states of the set, multimapper.c 198–202. -/
def stepBits (n : Nfa) (c : Byte) : List Nat → Nat → Res Nat
  | [], nxt => .ok nxt
  | b :: bs, nxt => nextStates n c b >>= fun l => stepBits n c bs (setStates nxt l)

/-- The set after `c`, multimapper.c 193–202. -/
def stepSet (n : Nfa) (bv : Nat) (c : Byte) : Res Nat :=
  nextStates n c 0 >>= fun l => stepBits n c (bits n.size bv) (setStates 0 l)

/-- `-st->is_match(st, &mapping)` and the mapping; lstate_is_match 36–45, ndstate_is_match 97–101. -/
def isMatch (n : Nfa) (bit : Nat) : Res (Nat × Option (List Byte)) :=
  match bit with
  | 0 => .ok (0, none)
  | b + 1 =>
    Res.ofOption n.states[b]? >>= fun s =>
    if s.val < 0 then .ok ((-s.val).toNat, s.mapping) else .ok (0, none)

/-- The loop of mulmap_process_state for the longest match, multimapper.c 183–191. -/
def findMatch (n : Nfa) : List Nat → Nat × Option (List Byte) → Res (Nat × Option (List Byte))
  | [], best => .ok best
  | b :: bs, best =>
    isMatch n b >>= fun r =>
    if r.1 > best.1 then
      match r.2 with
      | some m => findMatch n bs (r.1, some m)
      | none => .ub
    else findMatch n bs best

/-- The loop of mulmap_process_state over the alphabet, multimapper.c 192–204, with `rec` for the recursive
call. -/
def letterLoop (n : Nfa) (rec : List DState → Nat → Res (Nat × List DState)) (cur bv : Nat) :
    List Byte → List DState → Res (List DState)
  | [], t => .ok t
  | c :: cs, t =>
    stepSet n bv c >>= fun nxt =>
    rec t nxt >>= fun r =>
    letterLoop n rec cur bv cs (r.2.modify cur (fun d => { d with next := (c, r.1) :: d.next }))

/-- mulmap_process_state, multimapper.c 163–210: the position of the state in `dstates`, and `dstates`. -/
def processState (n : Nfa) (alpha : List Byte) : Nat → List DState → Nat → Res (Nat × List DState)
  | 0, _, _ => .ub
  | fuel + 1, t, bv =>
    match t.findIdx? (fun d => d.set == bv) with
    | some i => .ok (i, t)
    | none =>
      findMatch n (bits n.size bv) (0, none) >>= fun m =>
      letterLoop n (processState n alpha fuel) t.length bv alpha.reverse (t ++ [⟨bv, [], m.1, m.2⟩]) >>= fun t' =>
      .ok (t.length, t')

/-! ### The mapper -/

/-- MultiMapper, multimapper.h 34–49; `dfa` is `none` when `d_size` is 0. -/
structure Mapper where
  maps : List Mapping
  dfa : Option (List DState)
  deriving DecidableEq, Repr

/-- mulmap_new, multimapper.c 112–123. -/
def Mapper.new : Mapper := ⟨[], none⟩

/-- mulmap_add_mapping, multimapper.c 136–152. -/
def Mapper.add (s : Mapper) (pattern rep : List Byte) : Res Mapper :=
  if pattern = [] then .raise .arg else .ok ⟨s.maps ++ [⟨pattern, rep⟩], none⟩

/-- mulmap_compile, multimapper.c 212–260. -/
def Mapper.compile (s : Mapper) : Res Mapper :=
  addPatterns ⟨[], [], 128⟩ s.maps.reverse >>= fun n =>
  processState n (alphabet s.maps) (2 ^ n.size + 1) [] 0 >>= fun r => .ok { s with dfa := some r.2 }

/-- The loop of mulmap_map_len, multimapper.c 270–286: `out` is what is between `to` and `d`. -/
def mapLoop (dfa : List DState) (capa : Nat) : List Byte → Nat → List Byte → Res (List Byte)
  | [], _, out => .ok out
  | s :: rest, st, out =>
    if out.length + 1 < capa then
      Res.ofOption dfa[st]? >>= fun d =>
      Res.ofOption dfa[d.go s]? >>= fun ns =>
      match ns.mapping with
      | some m =>
        if out.length < ns.longest - 1 then .ub else
        let kept := out.take (out.length - (ns.longest - 1))
        mapLoop dfa capa rest 0 (kept ++ m.take (capa - 1 - kept.length))
      | none => mapLoop dfa capa rest (d.go s) (out ++ [s])
    else .ok out

/-- mulmap_map_len, multimapper.c 262–289: what is written, without the terminating zero. `dstates[0]` is read
before the test for an automaton. -/
def Mapper.mapLen (s : Mapper) (from_ : List Byte) (capa : Nat) : Res (List Byte) :=
  match s.dfa with
  | none => .ub
  | some dfa => if capa = 0 then .ub else mapLoop dfa capa from_ 0 []

/-- The loop of mulmap_dynamic_map, multimapper.c 308–331: the inner loop is that of mulmap_map_len; going round
again would use `to` after it was reallocated. -/
def dynLoop (dfa : List DState) (capa : Nat) : List Byte → Nat → List Byte → Res (List Byte)
  | [], _, out => .ok out
  | s :: rest, st, out =>
    if out.length + 1 < capa then
      Res.ofOption dfa[st]? >>= fun d =>
      Res.ofOption dfa[d.go s]? >>= fun ns =>
      match ns.mapping with
      | some m =>
        if out.length < ns.longest - 1 then .ub else
        let kept := out.take (out.length - (ns.longest - 1))
        dynLoop dfa capa rest 0 (kept ++ m.take (capa - 1 - kept.length))
      | none => dynLoop dfa capa rest (d.go s) (out ++ [s])
    else .ub

/-- mulmap_dynamic_map, multimapper.c 298–334: `capa` is `strlen(from)`; the final zero goes inside it or the
behaviour is undefined. -/
def Mapper.dynamicMap (s : Mapper) (from_ : List Byte) : Res (List Byte) :=
  match s.dfa with
  | none => .ub
  | some dfa =>
    dynLoop dfa from_.length from_ 0 [] >>= fun out =>
    if out.length < from_.length then .ok out else .ub

end Ferret.MultiMap
