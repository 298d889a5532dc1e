import Verif.Props.C08

/-! C09: buffered streams refine positional access to a byte array. -/

namespace Ferret.Props
open Ferret.Store Ferret.Spec

/-- **C09, partial.** For every history of writing sessions (each any sequence of bytes, blocks,
seeks and flushes) and every sequence of reads, block reads, seeks, position queries and clones
on the streams opened on the result, the observations are those of direct access to the bytes a
direct positional write leaves; EOF is raised exactly when a byte is read at or past the end, and
reading can go on afterwards.

Missing: a block read that goes past the end (`inCmds` is then `none`), which does not raise EOF
(`c09_block_past_end`), and seeking for output past the end. -/
theorem c09_streams_partial (junk : Byte) (ram : Bool) (history : List (List OutOp)) (d : List Byte) (hd : sessions [] history = some d)
    (cmds : List InCmd) (obs : List InObs) (hobs : inCmds d [0] cmds = some obs) :
    (doSessions junk (emptyFile junk ram) history >>= fun f => doIns [openInput f] cmds) = .ok obs := by
  obtain ⟨hw, hc⟩ := emptyFile_wf junk ram
  obtain ⟨f, h1, h2, h3⟩ := doSessions_spec junk history hw (by rw [hc]; exact hd)
  rw [h1, Res.ok_bind]
  have hin := openInput_spec h2
  rw [h3] at hin
  apply doIns_spec cmds (ps := [0]) _ hobs
  refine ⟨rfl, ?_⟩
  intro i s p hs hp
  cases i with
  | zero => simp at hs hp; subst hs hp; exact hin
  | succ i => simp at hs

/-- A history crossing buffers, with a seek back, and reads by two streams. -/
example : ((sessions [] [[.bytes (List.replicate 1030 7), .seek 5, .byte 1], [.seek 1030, .bytes [1, 2]]]).bind fun d =>
    inCmds d [0] [.bytes 0 4, .clone 0, .byte 1, .byte 1, .seek 0 1030, .bytes 0 2, .byte 0, .seek 0 5, .byte 0, .pos 1]) =
    some [.bytes [7, 7, 7, 7], .done, .byte 7, .byte 1, .done, .bytes [1, 2], .eof, .done, .byte 1, .pos 6] := by
  decide +kernel

/-- Reading a block past the end of a RAM file does not raise EOF: it returns whatever the memory
held, here the marker 170. -/
theorem c09_block_past_end :
    (doSessions 170 (emptyFile 170 true) [[.bytes [1, 2]]] >>= fun f => doIns [openInput f] [.bytes 0 4]) = .ok [.bytes [1, 2, 170, 170]] := by
  decide +kernel

/-- On a file of the operating system it raises an IO error. -/
theorem c09_block_past_end_fs :
    (doSessions 170 (emptyFile 170 false) [[.bytes [1, 2]]] >>= fun f => doIns [openInput f] [.bytes 0 4]) = .raise .io := by
  decide +kernel

/-- Copying `cnt` bytes from one stream to another copies exactly those bytes and moves both
positions by `cnt`, wherever the streams stand and whatever they have buffered. The streams are
reached by arbitrary histories. -/
theorem c09_copy_bytes (junk : Byte) (srcRam dstRam : Bool) (srcHist : List (List OutOp)) (src : List Byte) (hsrc : sessions [] srcHist = some src)
    (dstOps : List OutOp) (dst : List Byte) (q : Nat) (hdst : outOps ([], 0) dstOps = some (dst, q)) (p cnt : Nat) (hp : p + cnt ≤ src.length) :
    (doSessions junk (emptyFile junk srcRam) srcHist >>= fun f =>
      doOuts junk (newOutput (emptyFile junk dstRam)) dstOps >>= fun o =>
      copyBytes junk cnt cnt (isSeek (openInput f) p) o >>= fun r =>
      osClose junk r.2 >>= fun g => .ok (isPos r.1, g.content)) = .ok (p + cnt, writeAt dst q (slice src p cnt)) := by
  obtain ⟨hw, hc⟩ := emptyFile_wf junk srcRam
  obtain ⟨f, h1, h2, h3⟩ := doSessions_spec junk srcHist hw (by rw [hc]; exact hsrc)
  obtain ⟨hw', hc'⟩ := emptyFile_wf junk dstRam
  have ho := newOutput_spec hw'
  rw [hc'] at ho
  obtain ⟨o, h4, h5⟩ := doOuts_spec junk dstOps ho hdst
  have hin := isSeek_spec (openInput_spec h2) p
  rw [h3] at hin
  obtain ⟨s', o', h6, h7, h8⟩ := copyBytes_spec junk cnt cnt _ src p o dst q (Nat.le_refl _) hin hp h5
  obtain ⟨g, h9, -, h10⟩ := osClose_spec junk h8
  rw [h1, Res.ok_bind, h4, Res.ok_bind, h6, Res.ok_bind]
  simp only
  rw [h9, Res.ok_bind, h10, h7.pos]
  rfl

/-- Writing a RAM buffer to another stream copies its whole content, if its length is not a
multiple of the buffer size. -/
theorem c09_write_to_partial (junk : Byte) (ops : List OutOp) (d : List Byte) (p : Nat) (h : outOps ([], 0) ops = some (d, p)) (hd : d.length % 1024 ≠ 0)
    (dstRam : Bool) (dstOps : List OutOp) (dst : List Byte) (q : Nat) (hdst : outOps ([], 0) dstOps = some (dst, q)) :
    (doOuts junk (newOutput (emptyFile junk true)) ops >>= fun o =>
      doOuts junk (newOutput (emptyFile junk dstRam)) dstOps >>= fun other =>
      ramoWriteTo junk o other >>= fun r => osClose junk r.2 >>= fun g => .ok g.content) = .ok (writeAt dst q d) := by
  obtain ⟨hw, hc⟩ := emptyFile_wf junk true
  have ho := newOutput_spec hw
  rw [hc] at ho
  obtain ⟨hw', hc'⟩ := emptyFile_wf junk dstRam
  have ho' := newOutput_spec hw'
  rw [hc'] at ho'
  obtain ⟨o, h1, h2⟩ := doOuts_spec junk ops ho h
  obtain ⟨o', h3, h4⟩ := doOuts_spec junk dstOps ho' hdst
  have hram : ∃ rf q, o.file = .ram rf q := doOuts_ram junk ops (by exact ⟨_, _, rfl⟩) h1
  obtain ⟨o2, other, h5, -, h6⟩ := ramoWriteTo_spec junk h2 hram hd h4
  obtain ⟨g, h7, -, h8⟩ := osClose_spec junk h6
  rw [h1, Res.ok_bind, h3, Res.ok_bind, h5, Res.ok_bind]
  simp only
  rw [h7, Res.ok_bind, h8]

example : outOps ([], 0) [.bytes (List.replicate 1030 7), .seek 5, .byte 1] = some (writeAt (List.replicate 1030 7) 5 [1], 6) ∧ (writeAt (List.replicate 1030 7) 5 [1]).length % 1024 ≠ 0 := by
  decide +kernel

/-- With a length that is a multiple of the buffer size it may read beyond the array of buffers
(the bytes are not used): 1024 single bytes, all still in the stream's buffer. -/
theorem c09_write_to_out_of_bounds :
    (doOuts 0 (newOutput (emptyFile 0 true)) (List.replicate 1024 (.byte 1)) >>= fun o => ramoWriteTo 0 o (newOutput (.fs [] 0))).isUB = true := by
  decide +kernel

#print axioms c09_streams_partial
#print axioms c09_block_past_end
#print axioms c09_block_past_end_fs
#print axioms c09_copy_bytes
#print axioms c09_write_to_partial
#print axioms c09_write_to_out_of_bounds
end Ferret.Props
