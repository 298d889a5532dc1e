import Verif.Spec.Bytes

/-!
Model of the buffered streams (c/src/store.c) over in-memory files made of 1024-byte buffers
(c/src/ram_store.c) and over files of the operating system (c/src/fs_store.c).

Simplifications: allocation never fails; `int` and `off_t` do not overflow; a file of the
operating system is its byte content, and writing and reading it never fail for reasons other
than its length; reference counts are not represented here (see `Verif.Model.RamDir`).
-/

namespace Ferret.Store

/-- BUFFER_SIZE, c/include/config.h (FRT_BUFFER_SIZE). -/
def bufSize : Nat := 1024

/-- `RAMFile`, c/include/store.h: `buffers` (with `bufcnt` their number) and `len`. -/
structure RamFile where
  bufs : List (List Byte)
  len : Nat

/-- rf_new, ram_store.c 5–15. `junk` is what uninitialised memory holds. -/
def rfNew (junk : Byte) : RamFile := ⟨[List.replicate bufSize junk], 0⟩

/-- rf_extend_if_necessary, ram_store.c 17–23. -/
def rfExtend (junk : Byte) (rf : RamFile) (bufNum : Nat) : RamFile :=
  { rf with bufs := rf.bufs ++ List.replicate (bufNum + 1 - rf.bufs.length) (List.replicate bufSize junk) }

/-- `memcpy(rf->buffers[k] + off, src, n)`: undefined when there is no such buffer or the bytes
do not fit it. -/
def rfCopy (rf : RamFile) (k off : Nat) (src : List Byte) : Res RamFile :=
  match rf.bufs[k]? with
  | none => .ub
  | some b => if off + src.length ≤ b.length then .ok { rf with bufs := rf.bufs.set k (writeAt b off src) } else .ub

/-- ramo_flush_i, ram_store.c 186–218. Returns the file and `os->pointer`. -/
def ramoFlush (junk : Byte) (rf : RamFile) (pointer : Nat) (src : List Byte) : Res (RamFile × Nat) :=
  let k := pointer / bufSize
  let off := pointer % bufSize
  let toCopy := if bufSize - off < src.length then bufSize - off else src.length
  rfCopy (rfExtend junk rf k) k off (src.take toCopy) >>= fun rf1 =>
  (if toCopy < src.length then rfCopy (rfExtend junk rf1 (k + 1)) (k + 1) 0 (src.drop toCopy) else .ok rf1) >>= fun rf2 =>
  .ok ({ rf2 with len := if pointer + src.length > rf2.len then pointer + src.length else rf2.len }, pointer + src.length)

/-- The loop of rami_read_i, ram_store.c 304–320; `fuel` bounds the number of iterations. -/
def ramiLoop (rf : RamFile) : (fuel start remainder : Nat) → Res (List Byte)
  | _, _, 0 => .ok []
  | 0, _, _ + 1 => .ub
  | fuel + 1, start, r + 1 =>
    let n := if bufSize - start % bufSize ≥ r + 1 then r + 1 else bufSize - start % bufSize
    match rf.bufs[start / bufSize]? with
    | none => .ub
    | some b =>
      if start % bufSize + n ≤ b.length then
        ramiLoop rf fuel (start + n) (r + 1 - n) >>= fun rest => .ok (slice b (start % bufSize) n ++ rest)
      else .ub

/-! ### Output streams -/

/-- The file behind an `OutStream`: a RAM file with `os->pointer`, or a file of the operating
system with the offset of its descriptor. -/
inductive OutFile where
  | ram (rf : RamFile) (pointer : Nat)
  | fs (data : List Byte) (off : Nat)

/-- `OutStream`, c/include/store.h. The first `buf.pos` bytes of the buffer are `buf`. -/
structure OutS where
  buf : List Byte
  start : Nat
  file : OutFile

/-- `flush_i`: ramo_flush_i, or fso_flush_i, fs_store.c 241–247 (a gap left by seeking past the
end reads as zeros). -/
def flushI (junk : Byte) : OutFile → List Byte → Res OutFile
  | .ram rf p, src => ramoFlush junk rf p src >>= fun r => .ok (.ram r.1 r.2)
  | .fs data off, src => .ok (.fs (writeAt (data ++ List.replicate (off - data.length) 0) off src) (off + src.length))

/-- `seek_i`: ramo_seek_i, ram_store.c 220–223; fso_seek_i, fs_store.c 249–255. -/
def seekI : OutFile → Nat → OutFile
  | .ram rf _, p => .ram rf p
  | .fs data _, p => .fs data p

/-- os_flush, store.c 108–113. -/
def osFlush (junk : Byte) (o : OutS) : Res OutS :=
  flushI junk o.file o.buf >>= fun f => .ok ⟨[], o.start + o.buf.length, f⟩

/-- os_pos, store.c 122–125. -/
def osPos (o : OutS) : Nat := o.start + o.buf.length

/-- os_seek, store.c 127–132. -/
def osSeek (junk : Byte) (o : OutS) (p : Nat) : Res OutS :=
  osFlush junk o >>= fun o => .ok { o with start := p, file := seekI o.file p }

/-- The macro write_byte, store.c 138: no check for space. -/
def writeByte (o : OutS) (b : Byte) : Res OutS :=
  if o.buf.length < bufSize then .ok { o with buf := o.buf ++ [b] } else .ub

/-- os_write_byte, store.c 147–153. -/
def osWriteByte (junk : Byte) (o : OutS) (b : Byte) : Res OutS :=
  (if o.buf.length ≥ bufSize then osFlush junk o else .ok o) >>= fun o => writeByte o b

/-- The loop of os_write_bytes, store.c 168–178. -/
def osBytesLoop (junk : Byte) : (fuel : Nat) → OutS → List Byte → Res OutS
  | 0, o, src => if src = [] then .ok o else .ub
  | fuel + 1, o, src =>
    if src = [] then .ok o
    else
      let size := if src.length < bufSize then src.length else bufSize
      flushI junk o.file (src.take size) >>= fun f =>
      osBytesLoop junk fuel { o with file := f, start := o.start + size } (src.drop size)

/-- os_write_bytes, store.c 155–180. -/
def osWriteBytes (junk : Byte) (o : OutS) (src : List Byte) : Res OutS :=
  (if o.buf.length > 0 then osFlush junk o else .ok o) >>= fun o =>
  if src.length < bufSize then
    flushI junk o.file src >>= fun f => .ok { o with file := f, start := o.start + src.length }
  else osBytesLoop junk src.length o src

/-- The two loops of os_write_vint, os_write_voff_t and os_write_vll, store.c 545–599, with the
write of a byte as a parameter. -/
def vLoop (put : OutS → Byte → Res OutS) : (fuel : Nat) → OutS → Nat → Res OutS
  | 0, _, _ => .ub
  | fuel + 1, o, num =>
    if num > 127 then put o (byteOf (num % 128 + 128)) >>= fun o => vLoop put fuel o (num / 128)
    else put o (byteOf num)

/-- VINT_END, store.c: BUFFER_SIZE - VINT_MAX_LEN. -/
def vintEnd : Nat := 1014

/-- os_write_vint 545–561, os_write_voff_t 564–580 (of a non-negative offset), os_write_vll
583–599, store.c. Ten rounds are enough for 64 bits. -/
def osWriteV (junk : Byte) (o : OutS) (num : Nat) : Res OutS :=
  if o.buf.length > vintEnd then vLoop (osWriteByte junk) 10 o num else vLoop writeByte 10 o num

/-- os_write_voff_t, store.c 564–580, of any offset: `num > 127` is a signed comparison, so a
negative number is written as its low byte. -/
def osWriteVoff (junk : Byte) (o : OutS) (num : Int) : Res OutS :=
  if num < 0 then
    (if o.buf.length > vintEnd then osWriteByte junk o (byteOf (num % 256).toNat) else writeByte o (byteOf (num % 256).toNat))
  else osWriteV junk o num.toNat

/-- os_write_i32 504–510 (`k = 4`), os_write_i64 512–522 (`k = 8`), store.c: the bytes
`(num >> 8*(k-1)) & 0xFF`, …, `num & 0xFF` of a signed number. -/
def osWriteI (junk : Byte) : (k : Nat) → OutS → Int → Res OutS
  | 0, o, _ => .ok o
  | k + 1, o, num => osWriteByte junk o (byteOf ((num / (256 ^ k : Nat)) % 256).toNat) >>= fun o => osWriteI junk k o num

/-- os_write_u32 524–530, os_write_u64 532–542, store.c. -/
def osWriteU (junk : Byte) : (k : Nat) → OutS → Nat → Res OutS
  | 0, o, _ => .ok o
  | k + 1, o, num => osWriteByte junk o (byteOf (num / 256 ^ k % 256)) >>= fun o => osWriteU junk k o num

/-- os_write_string_len, store.c 601–605. -/
def osWriteString (junk : Byte) (o : OutS) (s : List Byte) : Res OutS :=
  osWriteV junk o s.length >>= fun o => osWriteBytes junk o s

/-- The loop of ramo_write_to, ram_store.c 248–251. `i` counts up to `last`. -/
def writeToLoop (junk : Byte) (rf : RamFile) (last : Nat) : (n i : Nat) → OutS → Res OutS
  | 0, _, o => .ok o
  | n + 1, i, o =>
    match rf.bufs[i]? with
    | none => .ub
    | some b => osWriteBytes junk o (b.take (if i = last then rf.len % bufSize else bufSize)) >>= fun o => writeToLoop junk rf last n (i + 1) o

/-- ramo_write_to, ram_store.c 238–252. -/
def ramoWriteTo (junk : Byte) (o other : OutS) : Res (OutS × OutS) :=
  osFlush junk o >>= fun o =>
  match o.file with
  | .ram rf _ =>
    let last := rf.len / bufSize
    writeToLoop junk rf last (last + 1) 0 other >>= fun other => .ok (o, other)
  | .fs _ _ => .ub

/-- ramo_reset, ram_store.c 225–229. -/
def ramoReset (junk : Byte) (o : OutS) : Res OutS :=
  osSeek junk o 0 >>= fun o =>
  match o.file with
  | .ram rf p => .ok { o with file := .ram { rf with len := 0 } p }
  | .fs _ _ => .ub

/-! ### Input streams -/

/-- The file behind an `InStream`: a RAM file with `is->d.pointer`, a file of the operating
system, or a member of a compound file (the bytes of that file, offset and length). -/
inductive InFile where
  | ram (rf : RamFile) (pointer : Nat)
  | fs (data : List Byte)
  | cmpd (base : List Byte) (off len : Nat)

/-- `InStream`, c/include/store.h. The first `buf.len` bytes of the buffer are `buf` (`buf.len`
is zero or negative after a failed refill: `buf = []`). -/
structure InS where
  file : InFile
  buf : List Byte
  start : Nat
  pos : Nat

/-- `length_i`: rami_length_i, ram_store.c 325–328; fsi_length_i, fs_store.c 319–326;
cmpdi_length_i, compound_io.c 122–125. -/
def inLength : InFile → Nat
  | .ram rf _ => rf.len
  | .fs data => data.length
  | .cmpd _ _ len => len

/-- `read_i` of `n` bytes: rami_read_i, ram_store.c 294–323, from its own pointer; fsi_read_i,
fs_store.c 287–301, from `is_pos` (the descriptor, which clones of the stream share, is moved
there first); cmpdi_read_i, compound_io.c 130–143, which seeks in and reads a block of the stream of
the compound file: by C09 this gives the bytes there (`c12_sub_stream`); past its end is undefined. -/
def readI (isPos : Nat) : InFile → Nat → Res (List Byte × InFile)
  | .ram rf p, n => ramiLoop rf n p n >>= fun l => .ok (l, .ram rf (p + n))
  | .fs data, n => if isPos + n ≤ data.length ∨ n = 0 then .ok (slice data isPos n, .fs data) else .raise .io
  | .cmpd base off len, n =>
    if isPos + n > len then .raise .eof
    else if off + isPos + n ≤ base.length then .ok (slice base (off + isPos) n, .cmpd base off len) else .ub

/-- `seek_i`: rami_seek_i, ram_store.c 330–333; fsi_seek_i, fs_store.c 303–309; cmpdi_seek_i,
compound_io.c 111–115. -/
def inSeekI : InFile → Nat → InFile
  | .ram rf _, p => .ram rf p
  | .fs data, _ => .fs data
  | .cmpd base off len, _ => .cmpd base off len

/-- A stream just opened: ram_open_input, ram_store.c 368–374; fs_open_input, fs_store.c 345–. -/
def isOpen (f : InFile) : InS := ⟨inSeekI f 0, [], 0, 0⟩

/-- is_pos, store.c 250–253. -/
def isPos (s : InS) : Nat := s.start + s.pos

/-- is_refill, store.c 204–224: `(true, s)` on success, `(false, s)` when EOF_ERROR is raised in
state `s` (whose `buf.len` is then not positive). -/
def isRefill (s : InS) : Res (Bool × InS) :=
  let start := s.start + s.pos
  let flen := inLength s.file
  let last := if start + bufSize > flen then flen else start + bufSize
  if last ≤ start then .ok (false, { s with buf := [] })
  else readI (isPos s) s.file (last - start) >>= fun r => .ok (true, ⟨r.2, r.1, start, 0⟩)

/-- The macro read_byte, store.c 231: no check; reading beyond the bytes of the buffer is
undefined here. -/
def readByte (s : InS) : Res (Byte × InS) :=
  match s.buf[s.pos]? with
  | none => .ub
  | some b => .ok (b, { s with pos := s.pos + 1 })

/-- is_read_byte, store.c 241–248; `none` when EOF_ERROR is raised in the state returned. -/
def isReadByteSt (s : InS) : Res (Option Byte × InS) :=
  if s.pos ≥ s.buf.length then
    isRefill s >>= fun r => if r.1 then readByte r.2 >>= fun x => .ok (some x.1, x.2) else .ok (none, r.2)
  else readByte s >>= fun x => .ok (some x.1, x.2)

/-- is_read_byte, store.c 241–248, inside a longer read: EOF_ERROR ends it. -/
def isReadByte (s : InS) : Res (Byte × InS) :=
  isReadByteSt s >>= fun r => match r.1 with
    | some b => .ok (b, r.2)
    | none => .raise .eof

/-- The loop of unchecked reads of is_read_bytes, store.c 261–263. -/
def readLoop (rd : InS → Res (Byte × InS)) : Nat → InS → Res (List Byte × InS)
  | 0, s => .ok ([], s)
  | n + 1, s => rd s >>= fun x => readLoop rd n x.2 >>= fun y => .ok (x.1 :: y.1, y.2)

/-- is_read_bytes, store.c 255–275. -/
def isReadBytes (s : InS) (n : Nat) : Res (List Byte × InS) :=
  if s.pos + n < s.buf.length then readLoop readByte n s
  else
    let start := isPos s
    readI (isPos s) (inSeekI s.file start) n >>= fun r => .ok (r.1, ⟨r.2, [], start + n, 0⟩)

/-- is_seek, store.c 277–288. -/
def isSeek (s : InS) (p : Nat) : InS :=
  if p ≥ s.start ∧ p < s.start + s.buf.length then { s with pos := p - s.start }
  else ⟨inSeekI s.file p, [], p, 0⟩

/-- The loops of is_read_vint 348–375, is_read_voff_t 378–405, is_read_vll 408–435, store.c, with
the read of a byte as a parameter, in a register of `bits` bits. The first byte is the round with
`shift = 0`. -/
def vReadLoop (rd : InS → Res (Byte × InS)) (bits : Nat) : (fuel shift acc : Nat) → InS → Res (Nat × InS)
  | 0, _, _, _ => .ub
  | fuel + 1, shift, acc, s =>
    rd s >>= fun x =>
    if shift ≥ bits then .ub
    else if x.1.toNat ≥ 128 then vReadLoop rd bits fuel (shift + 7) (acc ||| ((x.1.toNat % 128) <<< shift) % 2 ^ bits) x.2
    else .ok (acc ||| ((x.1.toNat % 128) <<< shift) % 2 ^ bits, x.2)

/-- is_read_vint (32 bits), is_read_voff_t and is_read_vll (64 bits), store.c 348–435. Eleven
rounds shift a 64-bit register too far, so the fuel is never the limit. -/
def isReadV (bits : Nat) (s : InS) : Res (Nat × InS) :=
  if s.pos + 10 > s.buf.length then vReadLoop isReadByte bits 11 0 0 s else vReadLoop readByte bits 11 0 0 s

/-- is_read_u32, is_read_u64, store.c 327–345, reading the bytes in the order written (the order
of evaluation is not fixed by the language; every compiler in use goes left to right). -/
def isReadU : (k acc : Nat) → InS → Res (Nat × InS)
  | 0, acc, s => .ok (acc, s)
  | k + 1, acc, s => isReadByte s >>= fun x => isReadU k (acc * 256 + x.1.toNat) x.2

/-- is_read_i32, is_read_i64, store.c 307–325: the same bits as a signed number. -/
def isReadI (k : Nat) (s : InS) : Res (Int × InS) :=
  isReadU k 0 s >>= fun r => .ok (toS k r.1, r.2)

/-- is_read_string, store.c 460–478. A length that is negative as an `int` is undefined. -/
def isReadString (s : InS) : Res (List Byte × InS) :=
  isReadV 32 s >>= fun r =>
  if r.1 ≥ 2 ^ 31 then .ub
  else if r.2.pos + r.1 > r.2.buf.length then readLoop isReadByte r.1 r.2
  else .ok (slice r.2.buf r.2.pos r.1, { r.2 with pos := r.2.pos + r.1 })

/-- is_skip_vints, store.c 437–443; `fuel` bounds the bytes read. -/
def isSkipVints : (fuel cnt : Nat) → InS → Res InS
  | _, 0, s => .ok s
  | 0, _ + 1, _ => .ub
  | fuel + 1, cnt + 1, s =>
    isReadByte s >>= fun x => isSkipVints fuel (if x.1.toNat ≥ 128 then cnt + 1 else cnt) x.2

/-- is2os_copy_bytes, store.c 624–634; `fuel` bounds the rounds. -/
def copyBytes (junk : Byte) : (fuel cnt : Nat) → InS → OutS → Res (InS × OutS)
  | _, 0, s, o => .ok (s, o)
  | 0, _ + 1, _, _ => .ub
  | fuel + 1, cnt + 1, s, o =>
    let len := if cnt + 1 > bufSize then bufSize else cnt + 1
    isReadBytes s len >>= fun r =>
    osWriteBytes junk o r.1 >>= fun o => copyBytes junk fuel (cnt + 1 - len) r.2 o

/-- is2os_copy_vints, store.c 636–645; `fuel` bounds the bytes copied. -/
def copyVints (junk : Byte) : (fuel cnt : Nat) → InS → OutS → Res (InS × OutS)
  | _, 0, s, o => .ok (s, o)
  | 0, _ + 1, _, _ => .ub
  | fuel + 1, cnt + 1, s, o =>
    isReadByte s >>= fun x =>
    osWriteByte junk o x.1 >>= fun o => copyVints junk fuel (if x.1.toNat ≥ 128 then cnt + 1 else cnt) x.2 o

end Ferret.Store
