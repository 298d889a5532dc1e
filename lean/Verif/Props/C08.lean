import Verif.Lemmas.StreamRun

/-! C08: typed values come back from a stream as they went in. -/

namespace Ferret.Props
open Ferret.Store Ferret.Spec

/-- A new, empty file: a RAM file whose memory holds `junk`, or a file of the operating system. -/
def emptyFile (junk : Byte) (ram : Bool) : OutFile :=
  if ram then .ram (rfNew junk) 0 else .fs [] 0

theorem emptyFile_wf (junk : Byte) (ram : Bool) : (emptyFile junk ram).WF ∧ (emptyFile junk ram).content = [] := by
  cases ram
  · exact ⟨trivial, rfl⟩
  · refine ⟨⟨?_, by simp [emptyFile, rfNew]⟩, by simp [emptyFile, rfNew, OutFile.content, RamFile.content]⟩
    intro b hb
    simp only [rfNew, List.mem_singleton] at hb
    subst hb; simp

/-- Write `vs` from position `q` of file `f`, close, open, seek to `q`, read values of the same
types. -/
def writeThenRead (junk : Byte) (f : OutFile) (q : Nat) (vs : List Val) : Res (List Val) :=
  osSeek junk (newOutput f) q >>= fun o =>
  writeVals junk o vs >>= fun o =>
  osClose junk o >>= fun f =>
  readVals (isSeek (openInput f) q) (vs.map Val.kind)

/-- **C08.** Whatever was written to the file before (`history`, with any number of sessions of
writes and seeks), whatever position the values are written at, and whatever the values, they are
read back the same. -/
theorem c08_round_trip (junk : Byte) (ram : Bool) (history : List (List OutOp)) (d : List Byte) (hd : sessions [] history = some d)
    (q : Nat) (hq : q ≤ d.length) (vs : List Val) (hvs : ∀ v ∈ vs, v.fits) :
    (doSessions junk (emptyFile junk ram) history >>= fun f => writeThenRead junk f q vs) = .ok vs := by
  obtain ⟨hw, hc⟩ := emptyFile_wf junk ram
  obtain ⟨f, h1, h2, h3⟩ := doSessions_spec junk history hw (by rw [hc]; exact hd)
  rw [h1, Res.ok_bind]
  unfold writeThenRead
  have ho := newOutput_spec h2
  rw [h3] at ho
  obtain ⟨o1, h4, h5, -⟩ := osSeek_spec junk ho q hq
  obtain ⟨o2, h6, h7⟩ := writeVals_spec junk vs hvs o1 d q h5
  obtain ⟨f2, h8, h9, h10⟩ := osClose_spec junk h7
  simp only at h6
  rw [h4, Res.ok_bind, h6, Res.ok_bind, h8, Res.ok_bind]
  have hin := isSeek_spec (openInput_spec h9) q
  rw [h10] at hin
  apply readVals_spec vs hvs hin (rest := d.drop (q + (vs.flatMap encVal).length))
  unfold writeAt
  rw [List.append_assoc, List.drop_append_of_le_length (by rw [List.length_take]; omega), List.drop_of_length_le (by rw [List.length_take]; omega)]
  simp

/-- The bytes on file are the documented formats, whatever was buffered. -/
theorem c08_wire_format (junk : Byte) (ram : Bool) (vs : List Val) (hvs : ∀ v ∈ vs, v.fits) :
    ∃ o f, writeVals junk (newOutput (emptyFile junk ram)) vs = .ok o ∧ osClose junk o = .ok f ∧ f.content = vs.flatMap encVal := by
  obtain ⟨hw, hc⟩ := emptyFile_wf junk ram
  have ho := newOutput_spec hw
  rw [hc] at ho
  obtain ⟨o, h1, h2⟩ := writeVals_spec junk vs hvs _ _ _ ho
  obtain ⟨f, h3, -, h4⟩ := osClose_spec junk h2
  exact ⟨o, f, h1, h3, by rw [h4]; simp [writeAt]⟩

/-- A history and values of every type, across the limits. -/
example : sessions [] [[.bytes (List.replicate 1030 7), .seek 5, .byte 1], [.seek 1030, .bytes [1, 2]]] ≠ none ∧
    (∀ v ∈ [Val.u32 4294967295, .i32 (-2147483648), .vint 300, .voff 9223372036854775807, .vll 18446744073709551615, .str [104, 105], .block [], .i64 (-1), .u64 5, .byte 9], v.fits) := by
  refine ⟨?_, ?_⟩
  · decide +kernel
  · decide +kernel

/-- The round trip itself on values of every type, computed by the model. -/
example : writeThenRead 170 (emptyFile 170 true) 0 [.u32 4294967295, .i32 (-2147483648), .vint 300, .voff 70000, .vll 18446744073709551615, .str [104, 105], .block [1, 2, 3], .i64 (-2)] =
    .ok [.u32 4294967295, .i32 (-2147483648), .vint 300, .voff 70000, .vll 18446744073709551615, .str [104, 105], .block [1, 2, 3], .i64 (-2)] := by decide +kernel

/-- A negative offset does not come back: the comparison in os_write_voff_t is signed, so one byte
is written. (The interface calls the argument unsigned.) -/
theorem c08_negative_offset : writeThenRead 0 (.fs [] 0) 0 [.voff (-128), .byte 1, .byte 2] ≠ .ok [.voff (-128), .byte 1, .byte 2] := by
  decide +kernel

#print axioms c08_round_trip
#print axioms c08_wire_format
#print axioms c08_negative_offset
end Ferret.Props
