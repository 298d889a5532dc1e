import Verif.Spec.SharedFile

/-!
Threads reading one file, each through a stream of its own (a copy made by is_clone, store.c
299–305, as enumerations, term dictionaries, stored fields and lazy documents make them, index.c 1482, 1540,
2313, 3011, 3115, 3216). A step is what one thread does until its next access to what threads share:
a file descriptor's offset (streams of a store on disk, fs_store.c 287–309), or the position of the
one stream all streams of a compound file read from (compound_io.c 127–141). Positions of streams
over files in memory are their own (ram_store.c 294–344). Calls of the operating system are atomic,
the file is not changed. The check of the offset after a short read (fs_store.c 296) is taken in one step
with the read. Commands are reading a byte and seeking; all typed reads are made of bytes
(C08). The buffer of the stream under a compound file is not modelled (it holds bytes of the file
all the same), nor are the reference counts of streams, nor what a thread does after an IO error.
-/

namespace Ferret.SharedFile
open Ferret Ferret.Spec

inductive Kind where
  | mem | fs | cmpd
  deriving DecidableEq

/-- Where a thread is in is_refill: not in it, after asking for the offset (fs_store.c 291), after
setting it (fs_store.c 292, or the is_seek of compound_io.c 139). -/
inductive Pc where
  | idle | told (q : Nat) | ready
  deriving DecidableEq

/-- A thread: the descriptor, where its file begins in what is read and how long it is (for a
compound file), the stream's buffer, where it is, the commands left, what it has seen, and whether
an IO error was raised. -/
structure Thr where
  fd : Nat
  base : Nat
  len : Nat
  start : Nat := 0
  buf : List Byte := []
  pos : Nat := 0
  pc : Pc := .idle
  cmds : List RCmd
  obs : List RObs := []
  failed : Bool := false
  deriving DecidableEq

/-- The number of bytes is_refill reads, store.c 205–212. -/
def blockLen (t : Thr) : Nat := min 1024 (t.len - (t.start + t.pos))

/-- The end of is_refill, store.c 220–221, and the byte read, 231, 247. -/
def deliver (t : Thr) (data : List Byte) : Thr :=
  match data with
  | [] => { t with failed := true }
  | b :: _ => { t with start := t.start + t.pos, buf := data, pos := 1, pc := .idle, cmds := t.cmds.tail, obs := t.obs ++ [.byte b] }

/-- The read of fsi_read_i, fs_store.c 294–300, at the offset `o`: fewer bytes than asked for are
an error unless the offset is then as expected, in which case the rest of the buffer is as it was
(`junk`). Under a compound file the offset expected is that of the shared stream. -/
def doRead (kind : Kind) (junk : Byte) (file : List Byte) (t : Thr) (o : Nat) : Thr × Nat :=
  let data := (file.drop o).take (blockLen t)
  if data.length = blockLen t ∨ (kind = .fs ∧ o + data.length = t.base + t.start + t.pos + blockLen t)
  then (deliver t (data ++ List.replicate (blockLen t - data.length) junk), o + data.length)
  else ({ t with failed := true }, o + data.length)

/-- One step of a thread, with the shared offset: is_read_byte 241–248, is_refill 203–222, is_seek
279–289 (store.c), fsi_read_i 287–302, fsi_seek_i 304–310 (fs_store.c), cmpdi_read_i 127–141,
cmpdi_seek_i 111–115 (compound_io.c), rami_read_i, rami_seek_i (ram_store.c). -/
def tstep (kind : Kind) (junk : Byte) (file : List Byte) (t : Thr) (o : Nat) : Thr × Nat :=
  if t.failed then (t, o)
  else match t.pc with
    | .told q => if q = t.base + t.start + t.pos then doRead kind junk file t o else ({ t with pc := .ready }, t.base + t.start + t.pos)
    | .ready => doRead kind junk file t o
    | .idle => match t.cmds with
      | [] => (t, o)
      | .seek p :: cs =>
        if t.start ≤ p ∧ p < t.start + t.buf.length then ({ t with pos := p - t.start, cmds := cs, obs := t.obs ++ [.done] }, o)
        else ({ t with start := p, pos := 0, buf := [], cmds := cs, obs := t.obs ++ [.done] }, if kind = .fs then t.base + p else o)
      | .byte :: cs =>
        match t.buf[t.pos]? with
        | some b => ({ t with pos := t.pos + 1, cmds := cs, obs := t.obs ++ [.byte b] }, o)
        | none =>
          if t.len ≤ t.start + t.pos then ({ t with buf := [], cmds := cs, obs := t.obs ++ [.eof] }, o)
          else match kind with
            | .mem => (deliver t ((file.drop (t.base + t.start + t.pos)).take (blockLen t)), o)
            | .fs => ({ t with pc := .told o }, o)
            | .cmpd => ({ t with pc := .ready }, t.base + t.start + t.pos)

/-- The offsets of the descriptors and the threads. -/
abbrev World := (Nat → Nat) × List Thr

/-- A step of the i-th thread. -/
def wstep (kind : Kind) (junk : Byte) (file : List Byte) (w : World) (i : Nat) : World :=
  match w.2[i]? with
  | none => w
  | some t =>
    let r := tstep kind junk file t (w.1 t.fd)
    (fun f => if f = t.fd then r.2 else w.1 f, w.2.set i r.1)

/-- A schedule: which thread makes each step. -/
def run (kind : Kind) (junk : Byte) (file : List Byte) (w : World) (sched : List Nat) : World := sched.foldl (wstep kind junk file) w

/-- The i-th thread is within a read. -/
def busy (w : World) (i : Nat) : Bool :=
  match w.2[i]? with
  | some t => t.pc != .idle && !t.failed
  | none => false

/-- A whole command of the i-th thread, as if the program held a lock meanwhile. -/
def turn (kind : Kind) (junk : Byte) (file : List Byte) (w : World) (i : Nat) : World :=
  let w1 := wstep kind junk file w i
  if busy w1 i then
    let w2 := wstep kind junk file w1 i
    if busy w2 i then wstep kind junk file w2 i else w2
  else w1

def turns (kind : Kind) (junk : Byte) (file : List Byte) (w : World) (sched : List Nat) : World := sched.foldl (turn kind junk file) w

/-- Threads at the beginning: descriptor, beginning and length of the file, and what they will do. -/
def begin (ts : List (Nat × Nat × Nat × List RCmd)) : World :=
  (fun _ => 0, ts.map fun x => { fd := x.1, base := x.2.1, len := x.2.2.1, cmds := x.2.2.2 })

end Ferret.SharedFile
