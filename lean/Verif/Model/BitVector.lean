import Verif.Model.Basic

/-!
Model of the growable bit vector, c/include/bitvector.h and c/src/bitvector.c.

Simplifications: C `int` indices are `Int` (no overflow of `bit + 1`), `1 << 31` is taken
to be the two's complement bit pattern, allocation never fails, reference counts are not
modelled.
-/

namespace Ferret.BitVector

/-- `frt_u32` (c/include/global.h). -/
abbrev Word := BitVec 32

/-- `struct FrtBitVector`, c/include/bitvector.h:12-33.  `bits` is the allocated word array, so the
C field `capa` is `bits.length`. -/
structure BV where
  bits : List Word
  size : Nat
  count : Int
  currBit : Int
  ext : Bool
  deriving DecidableEq, Repr

/-- `FRT_TO_WORD(n)`, c/include/global.h:75, for `n ≥ 0`: `((n-1) >> 5) + 1`. -/
def toWord (n : Nat) : Nat := (n + 31) / 32

/-- All-ones / all-zeros word selected by `extends_as_ones` (memset 0xFF / 0). -/
def fillWord (ext : Bool) : Word := if ext then BitVec.allOnes 32 else 0#32

/-- `bv_new_capa`, c/src/bitvector.c:5-16. -/
def newCapa (capa : Nat) : BV :=
  { bits := List.replicate (max (toWord capa) 4) 0#32, size := 0, count := 0,
    currBit := -1, ext := false }

/-- `bv_new`, c/src/bitvector.c:18-21 with `FRT_BV_INIT_CAPA` = 256 (c/include/bitvector.h:10). -/
def new : BV := newCapa 256

/-- `bv_clear`, c/src/bitvector.c:31-37 (note: `curr_bit` is left alone). -/
def clear (bv : BV) : BV :=
  { bv with bits := List.replicate bv.bits.length 0#32, ext := false, count := 0, size := 0 }

/-- `bv_scan_reset`, c/src/bitvector.c:39-42. -/
def scanReset (bv : BV) : BV := { bv with currBit := -1 }

/-- The loop `while (capa <= word) capa <<= 1;`, c/include/bitvector.h:93-95, with an
explicit bound on the number of iterations. -/
def growLoop : Nat → Nat → Nat → Nat
  | 0, c, _ => c
  | fuel + 1, c, w => if c ≤ w then growLoop fuel (2 * c) w else c

/-- The whole loop: `word + 1` doublings of a positive capacity always exceed `word`
(`growCapa_gt`). A zero capacity would loop forever in C; it never occurs because
`bv_new_capa` allocates at least 4 words. -/
def growCapa (c w : Nat) : Nat := growLoop (w + 1) c w

/-- `frt_bv_set_value`, c/include/bitvector.h:81-115. A negative index reads in front of
the array: undefined. -/
def setValue (bv : BV) (bit : Int) (v : Bool) : Res BV :=
  match bit with
  | .negSucc _ => .ub
  | .ofNat i =>
    let word := i / 32
    let bv1 : BV :=
      if i ≥ bv.size then
        let bv' := { bv with size := i + 1 }
        if word ≥ bv.bits.length then
          let capa := growCapa (2 * bv.bits.length) word
          { bv' with bits := bv.bits ++ List.replicate (capa - bv.bits.length) (fillWord bv.ext) }
        else bv'
      else bv
    match bv1.bits[word]? with
    | none => .ub
    | some w =>
      if w.getLsbD (i % 32) ≠ v then
        if v then
          .ok { bv1 with count := bv1.count + 1,
                         bits := bv1.bits.set word (w ||| (1#32 <<< (i % 32))) }
        else
          .ok { bv1 with count := bv1.count - 1,
                         bits := bv1.bits.set word (w &&& ~~~(1#32 <<< (i % 32))) }
      else .ok bv1

/-- `frt_bv_set`, c/include/bitvector.h:127-131. -/
def set (bv : BV) (bit : Int) : Res BV := setValue bv bit true

/-- `frt_bv_unset`, c/include/bitvector.h:195-199. -/
def unset (bv : BV) (bit : Int) : Res BV := setValue bv bit false

/-- `frt_bv_get`, c/include/bitvector.h:177-185. -/
def get (bv : BV) (bit : Int) : Res Bool :=
  match bit with
  | .negSucc _ => .ub
  | .ofNat i =>
    if i ≥ bv.size then .ok bv.ext
    else match bv.bits[i / 32]? with
      | none => .ub
      | some w => .ok (w.getLsbD (i % 32))

/-- `frt_count_ones`, c/include/global.h:226-257: population count. -/
def countOnes (w : Word) : Nat := ((List.range 32).filter (fun i => w.getLsbD i)).length

/-- `frt_count_zeros`, c/include/global.h:259-263. -/
def countZeros (w : Word) : Nat := countOnes (~~~w)

/-- Sum of a word statistic over the first `len` words. -/
def sumWords (f : Word → Nat) (ws : List Word) (len : Nat) : Nat :=
  ((ws.take len).map f).sum

/-- `frt_bv_recount`, c/include/bitvector.h:220-250. The partial word `bits[idx]` with
`idx = size >> 5` is read in every case, including when `size` is a multiple of 32;
outside the allocation that is undefined. -/
def recount (bv : BV) : Res BV :=
  let extra := ((bv.size % 32) / 8) + 1
  let len := bv.size / 32
  if len > bv.bits.length then .ub else
  match bv.bits[len]? with
  | none => .ub
  | some w =>
    let body := sumWords (if bv.ext then countZeros else countOnes) bv.bits len
    let part : Nat :=
      if bv.ext then
        (if extra ≥ 4 then countZeros (w ||| 0x00ffffff#32) else 0) +
        (if extra ≥ 3 then countZeros (w ||| 0xff00ffff#32) else 0) +
        (if extra ≥ 2 then countZeros (w ||| 0xffff00ff#32) else 0) +
        countZeros (w ||| 0xffffff00#32)
      else
        (if extra ≥ 4 then countOnes (w &&& 0xff000000#32) else 0) +
        (if extra ≥ 3 then countOnes (w &&& 0x00ff0000#32) else 0) +
        (if extra ≥ 2 then countOnes (w &&& 0x0000ff00#32) else 0) +
        countOnes (w &&& 0x000000ff#32)
    .ok { bv with count := (body + part : Nat) }

/-- `frt_count_trailing_zeros`, c/include/global.h:186-217: index of the lowest set bit, 32 for 0. -/
def ctz (w : Word) : Nat :=
  match (List.range 32).find? (fun i => w.getLsbD i) with
  | some i => i
  | none => 32

/-- The word loop `for (pos++; pos < word_size; ++pos) if ((word = bits[pos])) goto done;`,
c/include/bitvector.h:285-291; `n` is the number of words left, `word_size - pos`. -/
def scanWords (bits : List Word) : (n pos : Nat) → Res (Option (Nat × Word))
  | 0, _ => .ok none
  | n + 1, pos =>
    match bits[pos]? with
    | none => .ub
    | some w => if w ≠ 0#32 then .ok (some (pos, w)) else scanWords bits n (pos + 1)

/-- `frt_bv_scan_next_from`, c/include/bitvector.h:270-295. `bits[bit >> 5]` is read before
the range check, so a start index whose word is not allocated is undefined. The result
is the C return value (-1 for none). -/
def scanNextFrom (bv : BV) (bit : Int) : Res (Int × BV) :=
  match bit with
  | .negSucc _ => .ub
  | .ofNat i =>
    match bv.bits[i / 32]? with
    | none => .ub
    | some w =>
      if i ≥ bv.size then .ok (-1, bv)
      else
        let w' := w &&& (BitVec.allOnes 32 <<< (i % 32))
        if w' ≠ 0#32 then
          let r : Int := ((i / 32) * 32 + ctz w' : Nat)
          .ok (r, { bv with currBit := r })
        else
          match scanWords bv.bits (toWord bv.size - (i / 32 + 1)) (i / 32 + 1) with
          | .ok (some (pos, w'')) =>
            let r : Int := (pos * 32 + ctz w'' : Nat)
            .ok (r, { bv with currBit := r })
          | .ok none => .ok (-1, bv)
          | .raise e => .raise e
          | .ub => .ub

/-- `frt_bv_scan_next`, c/include/bitvector.h:306-310. -/
def scanNext (bv : BV) : Res (Int × BV) := scanNextFrom bv (bv.currBit + 1)

/-- `bv_eq`, c/src/bitvector.c:44-83 (the pointer-identity shortcut is subsumed: a vector
equals itself). A size exceeding the allocation is undefined (out-of-bounds reads). -/
def eq (a b : BV) : Res Bool :=
  if toWord a.size > a.bits.length ∨ toWord b.size > b.bits.length then .ub
  else if a.ext ≠ b.ext then .ok false
  else
    let minSize := min a.size b.size
    let ws := toWord minSize
    if a.bits.take ws ≠ b.bits.take ws then .ok false
    else
      if a.size > minSize then
        .ok (((a.bits.take (toWord a.size)).drop ws).all (fun w => w == fillWord a.ext))
      else if b.size > minSize then
        .ok (((b.bits.take (toWord b.size)).drop ws).all (fun w => w == fillWord a.ext))
      else .ok true

/-- `bv_hash`, c/src/bitvector.c:85-96; `unsigned long` is 64 bits wide. -/
def hash (bv : BV) : BitVec 64 :=
  let h := (bv.bits.take (toWord bv.size)).foldr
    (fun w (h : BitVec 64) => if w ≠ fillWord bv.ext then (h <<< (1:Nat)) ^^^ (w.setWidth 64) else h) 0#64
  (h <<< (1:Nat)) ||| (if bv.ext then 1#64 else 0#64)

/-- `frt_round2`, c/include/global.h:265-272: `1 << (32 - clz(word))`, i.e. the least power of
two strictly above `word` (1 for 0). Words stay below 2^31. -/
def round2 (n : Nat) : Nat := if n = 0 then 1 else 2 ^ (Nat.log2 n + 1)

/-- `frt_bv_capa`, c/include/bitvector.h:379-391. Words past `word_size` are (re)initialised
only when the allocation grows. Freshly realloc'ed words below `word_size` are
indeterminate in C; the callers overwrite all of them, the model fills them with the same
word. -/
def setCapa (bv : BV) (capa size : Nat) : BV :=
  let ws := toWord size
  if bv.bits.length < capa then
    { bv with
      bits := (bv.bits ++ List.replicate (capa - bv.bits.length) (fillWord bv.ext)).take ws
              ++ List.replicate (capa - ws) (fillWord bv.ext),
      size := size }
  else { bv with size := size }

/-- Which of the three binary operations (`&`, `|`, `^`). -/
inductive Op where
  | and | or | xor
  deriving DecidableEq, Repr

/-- The `op` macro argument of `FRT_BV_OP` on words. -/
def Op.word : Op → Word → Word → Word
  | .and, a, b => a &&& b
  | .or, a, b => a ||| b
  | .xor, a, b => a ^^^ b

/-- The `op` macro argument of `FRT_BV_OP` on the one-bit flags. -/
def Op.bool : Op → Bool → Bool → Bool
  | .and, a, b => a && b
  | .or, a, b => a || b
  | .xor, a, b => a ^^ b

/-- `frt_bv_and_ext`, `frt_bv_or_ext`, `frt_bv_xor_ext`, c/include/bitvector.h:393-409: the
value stored for a word present in only one operand. -/
def Op.extWord : Op → Bool → Word → Word
  | .and, true, w => w
  | .and, false, _ => 0#32
  | .or, true, _ => BitVec.allOnes 32
  | .or, false, w => w
  | .xor, e, w => w ^^^ fillWord e

/-- Overwrite words `0 .. ws.length-1` of an allocation. -/
def storeWords (bits ws : List Word) : List Word := ws ++ bits.drop ws.length

/-- `FRT_BV_OP`, c/include/bitvector.h:411-437, with the destination `dst` distinct from
both operands (callers `frt_bv_and`, `frt_bv_or`, `frt_bv_xor` pass a fresh vector,
lines 491-524). Operand words are read within `TO_WORD(size)` of each operand. -/
def opInto (op : Op) (dst a b : BV) : Res BV :=
  if toWord a.size > a.bits.length ∨ toWord b.size > b.bits.length then .ub else
  let maxSize := max a.size b.size
  let minSize := min a.size b.size
  let maxW := toWord maxSize
  let minW := toWord minSize
  let capa := max (round2 maxW) 4
  let dst := { dst with ext := op.bool a.ext b.ext }
  let dst := setCapa dst capa maxSize
  let low := List.zipWith op.word (a.bits.take minW) (b.bits.take minW)
  let high :=
    if toWord a.size < toWord b.size then
      ((b.bits.take maxW).drop minW).map (op.extWord a.ext)
    else if toWord b.size < toWord a.size then
      ((a.bits.take maxW).drop minW).map (op.extWord b.ext)
    else []
  recount { dst with bits := storeWords dst.bits (low ++ high) }

/-- `FRT_BV_OP` with the destination aliasing operand `a` (`frt_bv_and_x`, `frt_bv_or_x`,
`frt_bv_xor_x`, c/include/bitvector.h:546-576): `a->extends_as_ones` has already been
overwritten when the extension macro reads it (line 432), `a->bits` may have been
reallocated and its words past the old size are those of the resized vector. -/
def opInPlace (op : Op) (a b : BV) : Res BV :=
  if toWord a.size > a.bits.length ∨ toWord b.size > b.bits.length then .ub else
  let aW := toWord a.size
  let bW := toWord b.size
  let maxSize := max a.size b.size
  let minSize := min a.size b.size
  let maxW := toWord maxSize
  let minW := toWord minSize
  let capa := max (round2 maxW) 4
  let a1 := { a with ext := op.bool a.ext b.ext }
  let a2 := setCapa a1 capa maxSize
  let low := List.zipWith op.word (a2.bits.take minW) (b.bits.take minW)
  let high :=
    if aW < bW then
      ((b.bits.take maxW).drop minW).map (op.extWord a2.ext)
    else if bW < aW then
      ((a2.bits.take maxW).drop minW).map (op.extWord b.ext)
    else []
  recount { a2 with bits := storeWords a2.bits (low ++ high) }

/-- `frt_bv_and`/`frt_bv_or`/`frt_bv_xor`, c/include/bitvector.h:491-524. -/
def op (o : Op) (a b : BV) : Res BV := opInto o new a b

/-- `frt_bv_not_i` with a distinct destination, c/include/bitvector.h:463-481. -/
def notInto (dst a : BV) : Res BV :=
  if toWord a.size > a.bits.length then .ub else
  let ws := toWord a.size
  let capa := max (round2 ws) 4
  let dst := { dst with ext := !a.ext }
  let dst := setCapa dst capa a.size
  let low := (a.bits.take ws).map (fun w => ~~~w)
  recount { dst with
    bits := low ++ List.replicate (dst.bits.length - ws) (fillWord dst.ext) }

/-- `frt_bv_not`, c/include/bitvector.h:532-536. -/
def not (a : BV) : Res BV := notInto new a

/-- `frt_bv_not_x` (destination aliases the operand), c/include/bitvector.h:584-588.
The words read are the operand's own words after `frt_bv_capa`. -/
def notInPlace (a : BV) : Res BV :=
  if toWord a.size > a.bits.length then .ub else
  let ws := toWord a.size
  let capa := max (round2 ws) 4
  let a1 := { a with ext := !a.ext }
  let a2 := setCapa a1 capa a.size
  let low := (a2.bits.take ws).map (fun w => ~~~w)
  recount { a2 with
    bits := low ++ List.replicate (a2.bits.length - ws) (fillWord a2.ext) }

end Ferret.BitVector
