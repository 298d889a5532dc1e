import Verif.Model.Basic
import Verif.Spec.Bytes

/-!
Model of the memory pool, c/src/mempool.c: all functions but mp_destroy.

The memory is the list of chunks obtained from malloc, each with its bytes (arbitrary at first,
`junk`); a pointer is the number of a chunk and an offset into it. Writing or reading past the end
of a chunk is undefined, as is the overflow of an `int`. The rounding of sizes on Solaris (29–31) is
left out.
-/

namespace Ferret.MP
open Ferret

/-- `MemoryPool`, c/include/mempool.h, and the memory of its chunks. `buffers` has as many entries
as were allocated, `none` while not written. -/
structure Pool where
  bufAlloc : Nat
  bufCapa : Nat
  bufPointer : Nat
  pointer : Nat
  chunkSize : Nat
  curr : Nat
  buffers : List (Option Nat)
  mem : List (List Byte)

/-- A pointer into a chunk. -/
structure Ptr where
  chunk : Nat
  off : Nat
  deriving DecidableEq

/-- `malloc(n)`: the number of the new chunk and the memory. -/
def malloc (junk : Byte) (mem : List (List Byte)) (n : Nat) : Nat × List (List Byte) :=
  (mem.length, mem ++ [List.replicate n junk])

/-- mp_new_capa, mempool.c 6–18. -/
def newCapa (junk : Byte) (chunkSize initCapa : Nat) : Res Pool :=
  let m := malloc junk [] chunkSize
  if 0 < initCapa then
    .ok { bufAlloc := 1, bufCapa := initCapa, bufPointer := 0, pointer := 0, chunkSize := chunkSize,
          curr := m.1, buffers := (List.replicate initCapa none).set 0 (some m.1), mem := m.2 }
  else .ub

/-- mp_alloc, mempool.c 25–48. -/
def alloc (junk : Byte) (mp : Pool) (size : Nat) : Res (Pool × Ptr) :=
  let p : Ptr := ⟨mp.curr, mp.pointer⟩
  let pointer := mp.pointer + size
  if pointer < 2 ^ 31 then
    if pointer > mp.chunkSize then
      let bufPointer := mp.bufPointer + 1
      (if bufPointer ≥ mp.bufAlloc then
        let bufAlloc := mp.bufAlloc + 1
        let mp :=
          if bufAlloc ≥ mp.bufCapa then
            { mp with bufCapa := mp.bufCapa * 2, buffers := mp.buffers ++ List.replicate mp.bufCapa none }
          else mp
        let m := malloc junk mp.mem mp.chunkSize
        if bufPointer < mp.buffers.length then
          .ok { mp with bufAlloc := bufAlloc, buffers := mp.buffers.set bufPointer (some m.1), mem := m.2 }
        else .ub
       else .ok mp) >>= fun mp =>
      Res.ofOption mp.buffers[bufPointer]? >>= fun e =>
      Res.ofOption e >>= fun curr =>
      .ok ({ mp with bufPointer := bufPointer, curr := curr, pointer := size }, ⟨curr, 0⟩)
    else .ok ({ mp with pointer := pointer }, p)
  else .ub

/-- Writing bytes at a pointer, with memcpy or otherwise. -/
def poke (mp : Pool) (p : Ptr) (data : List Byte) : Res Pool :=
  Res.ofOption mp.mem[p.chunk]? >>= fun c =>
  if p.off + data.length ≤ c.length then
    .ok { mp with mem := mp.mem.set p.chunk (c.take p.off ++ data ++ c.drop (p.off + data.length)) }
  else .ub

/-- Reading `n` bytes at a pointer. -/
def peek (mp : Pool) (p : Ptr) (n : Nat) : Res (List Byte) :=
  Res.ofOption mp.mem[p.chunk]? >>= fun c =>
  if p.off + n ≤ c.length then .ok ((c.drop p.off).take n) else .ub

/-- mp_memdup, mempool.c 63–66. -/
def memdup (junk : Byte) (mp : Pool) (data : List Byte) : Res (Pool × Ptr) :=
  alloc junk mp data.length >>= fun r =>
  poke r.1 r.2 data >>= fun mp =>
  .ok (mp, r.2)

/-- mp_strdup, mempool.c 50–54; `s` is the string without its terminator. -/
def strdup (junk : Byte) (mp : Pool) (s : List Byte) : Res (Pool × Ptr) :=
  let len := s.length + 1
  alloc junk mp len >>= fun r =>
  poke r.1 r.2 ((s ++ [0]).take len) >>= fun mp =>
  .ok (mp, r.2)

/-- mp_strndup, mempool.c 56–61; `str` is the memory at the argument. -/
def strndup (junk : Byte) (mp : Pool) (str : List Byte) (len : Nat) : Res (Pool × Ptr) :=
  alloc junk mp (len + 1) >>= fun r =>
  if len ≤ str.length then
    poke r.1 r.2 (str.take len) >>= fun mp =>
    poke mp ⟨r.2.chunk, r.2.off + len⟩ [0] >>= fun mp =>
    .ok (mp, r.2)
  else .ub

/-- mp_used, mempool.c 68–71. -/
def used (mp : Pool) : Nat := mp.bufPointer * mp.chunkSize + mp.pointer

/-- mp_reset, mempool.c 73–78. -/
def reset (mp : Pool) : Res Pool :=
  Res.ofOption mp.buffers[0]? >>= fun e =>
  Res.ofOption e >>= fun curr =>
  .ok { mp with bufPointer := 0, pointer := 0, curr := curr }

end Ferret.MP
