import Verif.Model.Fields

/-!
Match vectors and the highlighting of a whole field, c/src/search.c 509–616 and 788–834:
match_range_cmp, matchv_add, matchv_compact, matchv_compact_with_breaks, matchv_set_offsets and
highlight_field.

`qsort` is any sorting: the compacting functions here take the ranges sorted. Positions are `int`s
whose successor is an `int`. Scores are sums of ones, exact as floats below 2^24; they are integers
here. The memory after the ranges of a match vector is not initialised.
-/

namespace Ferret.MV
open Ferret Ferret.Spec Ferret.Fields

/-- `MatchRange`, search.h 58–66, without the offsets. -/
structure MR where
  start : Int
  stop : Int
  score : Int
  deriving DecidableEq

/-- `MatchVector`, search.h 68–73: the initialised ranges and the size. -/
structure MV where
  matches_ : List MR
  size : Nat
  deriving DecidableEq

/-- matchv_new, search.c 524–533. -/
def mvNew : MV := ⟨[], 0⟩

/-- matchv_add, search.c 535–546. -/
def mvAdd (mv : MV) (start stop : Int) : MV := ⟨mv.matches_ ++ [⟨start, stop, 1⟩], mv.size + 1⟩

/-- match_range_cmp, search.c 510–519. -/
def cmp (a b : MR) : Int := if a.start - b.start ≠ 0 then a.start - b.start else b.stop - a.stop

/-- The body of the loop of matchv_compact, search.c 560–571: the array and `left`. -/
def compactBody (m : List MR) (left right : Nat) : Res (List MR × Nat) :=
  Res.ofOption m[right]? >>= fun r =>
  Res.ofOption m[left]? >>= fun l =>
  if r.start > l.stop + 1 then
    if left + 1 < m.length then .ok (m.set (left + 1) r, left + 1) else .ub
  else if r.stop > l.stop then .ok (m.set left { l with stop := r.stop }, left)
  else .ok (m.set left { l with score := l.score + r.score }, left)

/-- The body of the loop of matchv_compact_with_breaks, search.c 583–595. -/
def breaksBody (m : List MR) (left right : Nat) : Res (List MR × Nat) :=
  Res.ofOption m[right]? >>= fun r =>
  Res.ofOption m[left]? >>= fun l =>
  if r.start > l.stop then
    if left + 1 < m.length then .ok (m.set (left + 1) r, left + 1) else .ub
  else if r.stop > l.stop then .ok (m.set left { l with stop := r.stop, score := l.score + r.score }, left)
  else if right > left then .ok (m.set left { l with score := l.score + r.score }, left)
  else .ok (m, left)

/-- The loops, search.c 558 and 581, for `n` more values of `right`. -/
def compactLoop (body : List MR → Nat → Nat → Res (List MR × Nat)) : Nat → Nat → List MR → Nat → Res (List MR × Nat)
  | 0, _, m, left => .ok (m, left)
  | n + 1, right, m, left =>
    body m left right >>= fun p => compactLoop body n (right + 1) p.1 p.2

/-- matchv_compact, search.c 554–575, of sorted ranges. -/
def compact (mv : MV) : Res MV :=
  compactLoop compactBody mv.size 0 mv.matches_ 0 >>= fun p => .ok ⟨p.1, p.2 + 1⟩

/-- matchv_compact_with_breaks, search.c 577–599, of sorted ranges. -/
def compactWithBreaks (mv : MV) : Res MV :=
  compactLoop breaksBody mv.size 0 mv.matches_ 0 >>= fun p => .ok ⟨p.1, p.2 + 1⟩

/-- Reading the ranges of a match vector. -/
def ranges (mv : MV) : Res (List MR) := if mv.size ≤ mv.matches_.length then .ok (mv.matches_.take mv.size) else .ub

/-- matchv_set_offsets, search.c 602–610: the offsets of each range. -/
def setOffsets (offsets : List (Int × Int)) : List MR → Res (List (Int × Int))
  | [] => .ok []
  | m :: ms =>
    if m.start < 0 ∨ m.stop < 0 then .ub
    else
      Res.ofOption offsets[m.start.toNat]? >>= fun s =>
      Res.ofOption offsets[m.stop.toNat]? >>= fun e =>
      setOffsets offsets ms >>= fun r => .ok ((s.1, e.2) :: r)

/-- `if (len) lazy_df_get_bytes(...)`, search.c 807–810: the field afterwards and the bytes. -/
def copyBytes (Z : Zip) (fdt : List Byte) (f : LazyF) (start len : Int) : Res (LazyF × List Byte) :=
  if len ≠ 0 then
    lazyGetBytes Z fdt f start len >>= fun r => r.2 >>= fun b => .ok (r.1, b)
  else .ok (f, [])

/-- The loop of highlight_field, search.c 804–821. -/
def highlightLoop (Z : Zip) (fdt pre post : List Byte) : LazyF → Int → List (Int × Int) → Res ((LazyF × Int) × List Byte)
  | f, last, [] => .ok ((f, last), [])
  | f, last, (s, e) :: ms =>
    copyBytes Z fdt f last (s - last) >>= fun a =>
    copyBytes Z fdt a.1 s (e - s) >>= fun b =>
    highlightLoop Z fdt pre post b.1 e ms >>= fun r =>
    .ok (r.1, a.2 ++ (pre ++ (b.2 ++ (post ++ r.2))))

/-- highlight_field, search.c 788–834, with the ranges sorted. What is written must fit the buffer
allocated at 796–797. Without matches, the terminator is put at 831 after as many bytes as the field says
it has by then. -/
def highlightField (Z : Zip) (fdt : List Byte) (f : LazyF) (mv : MV) (offsets : List (Int × Int)) (pre post : List Byte) :
    Res (List Byte) :=
  let room : Int := 10 + f.len + mv.size * (pre.length + post.length : Nat)
  (if mv.size > 0 then
    compactWithBreaks mv >>= fun mv =>
    ranges mv >>= fun ms =>
    setOffsets offsets ms >>= fun os =>
    highlightLoop Z fdt pre post f 0 os >>= fun r =>
    copyBytes Z fdt r.1.1 r.1.2 (r.1.1.len - r.1.2) >>= fun t =>
    .ok (r.2 ++ t.2)
   else
    lazyGetBytes Z fdt f 0 f.len >>= fun r =>
    r.2 >>= fun b =>
    if r.1.len = b.length then .ok b else .ub) >>= fun out =>
  if (out.length : Int) + 1 ≤ room then .ok out else .ub

end Ferret.MV
