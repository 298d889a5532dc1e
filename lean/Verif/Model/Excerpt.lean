import Verif.Model.MatchVector
import Verif.Model.PriorityQueue

/-!
Excerpts, c/src/search.c 645–786 and 853–963: excerpt_new, excerpt_lt, excerpt_start_cmp,
excerpt_recalc_score, excerpt_expand, excerpt_get_str and searcher_highlight, from the match vector on.

Scores are sums of ones, integers here. An excerpt is known by its first match while it is in the queue, as
no two excerpts of the queue begin with the same match: where the code compares pointers, its first match is
compared. For the same reason there is one way to sort excerpts by their first matches, and `qsort` is an
insertion sort. The number of excerpts is not negative. Reading the matches before the first or after the last
is `.ub`, as is the overflow of the length of all excerpts together, and writing more than was allocated.
Offsets and lengths are small enough for the sum of two to be an `int`.
Excerpts are values: that each is freed once is not modelled.
-/

namespace Ferret.Excerpt
open Ferret Ferret.Spec Ferret.Fields Ferret.MV

/-- `MatchRange`, search.h 45–52. -/
structure Mt where
  start : Int
  stop : Int
  so : Int
  eo : Int
  score : Int
  deriving DecidableEq

/-- `Excerpt`, search.c 645–654. -/
structure Ex where
  start : Int
  stop : Int
  startPos : Int
  stopPos : Int
  so : Int
  eo : Int
  score : Int
  deriving DecidableEq

/-- excerpt_lt, search.c 672–675. -/
def exLt (a b : Ex) : Bool := decide (a.score > b.score)

/-- excerpt_new, search.c 677–684. -/
def exNew (start stop score : Int) : Ex := ⟨start, stop, 0, 0, 0, 0, score⟩

/-- Reading an element of an array. -/
def readAt {α : Type} (l : List α) (i : Int) : Res α := if i < 0 then .ub else Res.ofOption l[i.toNat]?

/-- The matches with their offsets, as matchv_set_offsets, search.c 602–610, leaves them. -/
def withOffsets : List MR → List (Int × Int) → List Mt
  | m :: ms, o :: os => ⟨m.start, m.stop, o.1, o.2, m.score⟩ :: withOffsets ms os
  | _, _ => []

/-- The matches of an excerpt, for the loops at search.c 690 and 899. -/
def runOf (ms : List Mt) (start stop : Int) : Res (List Mt) :=
  if start ≤ stop then
    if start < 0 ∨ (ms.length : Int) ≤ stop then .ub
    else .ok ((ms.drop start.toNat).take (stop + 1 - start).toNat)
  else .ok []

/-- excerpt_recalc_score, search.c 686–695. -/
def recalc (e : Ex) (ms : List Mt) : Res Ex :=
  runOf ms e.start e.stop >>= fun r => .ok { e with score := (r.map (·.score)).sum }

/-- The inner loop of search.c 883–887 over the matches from `e_end` on: how many are added, and their score. -/
def advance (lim : Int) : List Mt → Nat × Int
  | [] => (0, 0)
  | m :: ms => if m.eo ≤ lim then ((advance lim ms).1 + 1, m.score + (advance lim ms).2) else (0, 0)

/-- search.c 879–882: `e_end` and the running score when the excerpt from `e_start` is begun. -/
def begun (eStart eEnd : Nat) (running : Int) : Nat × Int := if eStart > eEnd then (eStart, 0) else (eEnd, running)

/-- The loop of search.c 877–892, for `n` more values of `e_start`. -/
def candLoop (len : Int) (ms : List Mt) : Nat → Nat → Nat → Int → PQ.PQ Ex → Res (PQ.PQ Ex)
  | 0, _, _, _, q => .ok q
  | n + 1, eStart, eEnd, running, q =>
    Res.ofOption ms[eStart]? >>= fun m =>
    let b := begun eStart eEnd running
    let a := advance (m.so + len) (ms.drop b.1)
    PQ.push exLt q (exNew eStart ((b.1 + a.1 : Nat) - 1) (b.2 + a.2)) >>= fun q =>
    candLoop len ms n (eStart + 1) (b.1 + a.1) (b.2 + a.2 - m.score) q

/-- search.c 899–901: the scores of the matches from `start` to `stop` are put to 0. -/
def zeroed : Nat → Int → Int → List Mt → List Mt
  | _, _, _, [] => []
  | i, start, stop, m :: ms =>
    (if start ≤ (i : Int) ∧ (i : Int) ≤ stop then { m with score := 0 } else m) :: zeroed (i + 1) start stop ms

/-- The loop of search.c 902–907: `last` is the first match of the excerpt whose score was computed last. -/
def settle (ms : List Mt) : Nat → Option Int → List Ex → Res (List Ex)
  | _, _, [] => .ok []
  | 0, _, _ :: _ => .ub
  | n + 1, last, t :: h =>
    if last = some t.start then .ok (t :: h)
    else
      recalc t ms >>= fun t' =>
      PQ.down exLt (t' :: h) >>= fun h' => settle ms n (some t.start) h'

/-- The loop of search.c 894–909, for `n` more excerpts: the excerpts taken from the queue, in order. -/
def pickLoop : Nat → List Mt → PQ.PQ Ex → Res (List Ex)
  | 0, _, _ => .ok []
  | n + 1, ms, q =>
    PQ.pop exLt q >>= fun p =>
    match p.1 with
    | none => .ok []
    | some e =>
      if n = 0 then .ok [e]
      else
        runOf ms e.start e.stop >>= fun _ =>
        settle (zeroed 0 e.start e.stop ms) (p.2.heap.length + 2) none p.2.heap >>= fun h =>
        pickLoop n (zeroed 0 e.start e.stop ms) { p.2 with heap := h } >>= fun r =>
        .ok (e :: r)

/-- `qsort` with excerpt_start_cmp, search.c 667–670 and 911. -/
def sortIn (e : Ex) : List Ex → List Ex
  | [] => [e]
  | x :: xs => if e.start ≤ x.start then e :: x :: xs else x :: sortIn e xs

def sortEx : List Ex → List Ex
  | [] => []
  | e :: es => sortIn e (sortEx es)

/-- search.c 912–918. -/
def place (ms : List Mt) (offsets : List (Int × Int)) : List Ex → Res (List Ex)
  | [] => .ok []
  | e :: es =>
    readAt ms e.start >>= fun a =>
    readAt ms e.stop >>= fun b =>
    readAt offsets a.start >>= fun p =>
    readAt offsets b.stop >>= fun q =>
    place ms offsets es >>= fun r =>
    .ok ({ e with startPos := a.start, stopPos := b.stop, so := p.1, eo := q.2 } :: r)

/-- An excerpt put before the others, search.c 924–929. -/
def empty : Ex := ⟨0, -1, 0, 0, 0, 0, 0⟩

/-- search.c 920–930. -/
def padded (num : Nat) (es : List Ex) : List Ex := List.replicate (num - es.length) empty ++ es

/-- The loop of search.c 937–946: `k` is `j - i + 1`. -/
def mergeIn (len : Int) : Ex → List Ex → Nat → Nat → Ex × Nat
  | ei, [], _, merged => (ei, merged)
  | ei, ej :: es, k, merged =>
    if ej.eo - ei.so < (k : Int) * len then
      mergeIn len { ei with stop := ej.stop, stopPos := ej.stopPos, eo := ej.eo } es (k + 1) k
    else mergeIn len ei es (k + 1) merged

/-- search.c 705–712: the offsets of positions without a term. -/
def fillFrom : Int × Int → List (Int × Int) → List (Int × Int)
  | _, [] => []
  | p, o :: os =>
    let o' := (if o.1 = 0 then p.1 else o.1, if o.2 = 0 then p.2 else o.2)
    o' :: fillFrom o' os

def fillIn : List (Int × Int) → List (Int × Int)
  | [] => []
  | o :: os => o :: fillFrom o os

/-- search.c 716–721. -/
def growLeft (len : Int) (offsets : List (Int × Int)) (e : Ex) : Res (Ex × Bool) :=
  if e.startPos > 0 then
    readAt offsets (e.startPos - 1) >>= fun o =>
    if e.eo - o.1 < len then .ok ({ e with startPos := e.startPos - 1, so := o.1 }, true) else .ok (e, false)
  else .ok (e, false)

/-- search.c 722–727. -/
def growRight (len : Int) (offsets : List (Int × Int)) (e : Ex) : Res (Ex × Bool) :=
  if e.stopPos < (offsets.length : Int) - 1 then
    readAt offsets (e.stopPos + 1) >>= fun o =>
    if o.2 - e.so < len then .ok ({ e with stopPos := e.stopPos + 1, eo := o.2 }, true) else .ok (e, false)
  else .ok (e, false)

/-- The loop of excerpt_expand, search.c 714–728. -/
def expandLoop (len : Int) (offsets : List (Int × Int)) : Nat → Ex → Res Ex
  | 0, _ => .ub
  | n + 1, e =>
    growLeft len offsets e >>= fun a =>
    growRight len offsets a.1 >>= fun b =>
    if a.2 || b.2 then expandLoop len offsets n b.1 else .ok b.1

/-- excerpt_expand, search.c 698–730, with the offsets filled in. -/
def expand (len : Int) (offsets : List (Int × Int)) (e : Ex) : Res Ex := expandLoop len offsets (2 * offsets.length + 1) e

/-- excerpt_get_str, search.c 732–786. Its loop is that of highlight_field, from the start of the excerpt. -/
def getStr (Z : Zip) (fdt : List Byte) (f : LazyF) (ms : List Mt) (pre post ell : List Byte) (e : Ex) : Res (LazyF × List Byte) :=
  let room : Int := 10 + e.eo - e.so + (e.stop - e.start + 1) * (pre.length + post.length : Nat) + 2 * ell.length
  runOf ms e.start e.stop >>= fun run =>
  highlightLoop Z fdt pre post f e.so (run.map fun m => (m.so, m.eo)) >>= fun r =>
  let eo := if r.1.1.len - e.eo ≤ ell.length then (r.1.1.len : Int) else e.eo
  copyBytes Z fdt r.1.1 r.1.2 (eo - r.1.2) >>= fun t =>
  let out := (if e.so > 0 then ell else []) ++ (r.2 ++ (t.2 ++ (if eo < t.1.len then ell else [])))
  if (out.length : Int) + 1 ≤ room then .ok (t.1, out) else .ub

/-- The loop of search.c 934–952. -/
def writeLoop (Z : Zip) (fdt : List Byte) (ms : List Mt) (offsets : List (Int × Int)) (len : Int) (pre post ell : List Byte) :
    Nat → LazyF → List Ex → Res (List (List Byte))
  | _, _, [] => .ok []
  | 0, _, _ :: _ => .ub
  | n + 1, f, ei :: es =>
    let m := mergeIn len ei es 2 1
    expand (m.2 * len) (fillIn offsets) m.1 >>= fun e =>
    getStr Z fdt f ms pre post ell e >>= fun r =>
    writeLoop Z fdt ms offsets len pre post ell n r.1 ((ei :: es).drop m.2) >>= fun rest =>
    .ok (r.2 :: rest)

/-- The choice of excerpts, search.c 874–911, of matches with their offsets. -/
def choose (len : Int) (num : Nat) (ms : List Mt) : Res (List Ex) :=
  candLoop len ms ms.length 0 0 0 (PQ.new ms.length) >>= fun q => pickLoop num ms q

/-- search.c 865–957, of the matches before they are compacted. -/
def excerpts (Z : Zip) (fdt : List Byte) (f : LazyF) (mv : MV) (offsets : List (Int × Int)) (len : Int) (num : Nat)
    (pre post ell : List Byte) : Res (List (List Byte)) :=
  compactWithBreaks mv >>= fun mv =>
  ranges mv >>= fun ms =>
  setOffsets offsets ms >>= fun os =>
  let ms := withOffsets ms os
  choose len num ms >>= fun es =>
  place ms offsets (sortEx es) >>= fun es =>
  writeLoop Z fdt ms offsets len pre post ell num f (padded num es)

/-- searcher_highlight, search.c 859–958, of a field that is stored with term vectors, with the ranges of the
match vector sorted: `none` is NULL. -/
def highlight (Z : Zip) (fdt : List Byte) (f : LazyF) (mv : MV) (offsets : List (Int × Int)) (len : Int) (num : Nat)
    (pre post ell : List Byte) : Res (Option (List (List Byte))) :=
  if len * num < -(2 ^ 31) ∨ 2 ^ 31 ≤ len * num then .ub
  else if f.len < len * num then
    highlightField Z fdt f mv offsets pre post >>= fun s => .ok (some [s])
  else if mv.size > 0 then
    excerpts Z fdt f mv offsets len num pre post ell >>= fun es => .ok (some es)
  else .ok none

end Ferret.Excerpt
