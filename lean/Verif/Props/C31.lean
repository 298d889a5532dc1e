import Verif.Lemmas.SnapshotInv
import Verif.Spec.Snapshot

/-! C31: readers keep seeing the commit they were opened on. -/

namespace Ferret.Props
open Ferret Ferret.Spec Ferret.Names Ferret.Sis Ferret.Dlr Ferret.Snap

/-- **C31, streams.** Take any history of writers and readers of an index (`before`). A reader takes
the commit that is there now (`w0.disk`). Before it opens a file of the commit anything may happen
(`mid`) but a new index being created. Then the file is not found, or it has the content it had when
the commit was taken, and whatever writers do from then on (`after`: merges, deletions, undeletions,
norms, removals, crashes, a new index, other readers), the stream gives the bytes of that content, from
a RAM directory as the code implements it. -/
theorem c31_snapshot_partial (fis : Fis.FIS) (now : Nat) (before mid : List Ev) {ops1 ops2 obs1 obs2 w0 w1}
    (hb : run (start fis now) before = some (ops1, obs1, w0)) (hm : run w0 mid = some (ops2, obs2, w1)) (hc : ∀ fis now, Ev.create fis now ∉ mid)
    (si : SI) (hsi : si ∈ w0.disk.segs) :
    ∃ ns, segStreams si = .ok ns ∧ ∀ n ∈ ns,
      (fileOf w1.dir n = none ∧ step w1 (.openIn n) = some ([.openIn n], [.error], w1)) ∨
      ∃ f w2, fileOf w0.dir n = some f ∧ step w1 (.openIn n) = some ([.openIn n], [.num w1.dir.ins.length], w2) ∧
        ∀ after ops3 obs3 w3, run w2 after = some (ops3, obs3, w3) → Ev.closeIn w1.dir.ins.length ∉ after → ∀ pos len, pos + len ≤ f.length →
          ∃ d, RamDir.doOps RamDir.new (ops1 ++ (ops2 ++ (.openIn n :: (ops3 ++ [.read w1.dir.ins.length pos len])))) =
            .ok (obs1 ++ (obs2 ++ (.num w1.dir.ins.length :: (obs3 ++ [.bytes (slice f pos len)]))), d) := by
  obtain ⟨i1, -, -, r1⟩ := run_ok (dels := false) (inv_start _ fis now) (fun h => by cases h) hb
  obtain ⟨i2, p2, l2, r2⟩ := run_ok (dels := false) i1 (fun h => by cases h) hm
  obtain ⟨ns, hns, hfz⟩ := segStreams_ok i1.wf hsi
  refine ⟨ns, hns, fun n hn => ?_⟩
  have hf0 := hfz n hn
  obtain ⟨hf1, hlk⟩ := l2 hc n hf0
  cases hl : lookupName w1.dir.names n with
  | none =>
    left
    refine ⟨by simp [fileOf, hl], ?_⟩
    simp only [step, calls, Option.bind_some, drun, dstep, hl, Option.map_some]
  | some i =>
    right
    rw [hl] at hlk
    rcases hlk with hlk | hlk
    · obtain ⟨f, hp⟩ := pin_of i1.dir hlk.symm hf0
      have hp1 := p2 i f hp
      let w2 : World := ⟨{ w1.dir with ins := w1.dir.ins ++ [some i] }, w1.disk, w1.mem⟩
      have hstep : step w1 (.openIn n) = some ([.openIn n], [.num w1.dir.ins.length], w2) := by
        simp only [step, calls, Option.bind_some, drun, dstep, hl, Option.map_some, w2]
      refine ⟨f, w2, by simp [fileOf, ← hlk, hp.file], hstep, fun after ops3 obs3 w3 ha hcl pos len hpl => ?_⟩
      obtain ⟨i2', p2', -, r2'⟩ := step_ok i2 (fun h => by cases h) hstep
      obtain ⟨-, p3, -, r3⟩ := run_ok (dels := false) i2' (fun h => by cases h) ha
      have hp3 := p3 i f (p2' i f hp1)
      have hins : w2.dir.ins[w1.dir.ins.length]? = some (some i) := by simp [w2]
      have hins3 := drun_ins r3 hins (run_closeIn ha hcl)
      have hr : drun w3.dir [.read w1.dir.ins.length pos len] = some ([.bytes (slice f pos len)], w3.dir) := by
        simp only [drun, dstep, hins3, hp3.file, if_pos hpl]; rfl
      have hall := drun_join ops1 _ r1 (drun_join ops2 _ r2 (drun_join [.openIn n] _ r2' (drun_join ops3 _ r3 hr)))
      obtain ⟨d, h1, -⟩ := RamDir.doOps_spec _ RamDir.drel_new hall
      exact ⟨d, h1⟩
    · cases hlk

/-- **C31, deletions.** The deletions of a segment are read when it is opened. As long as the
session in progress when the commit is taken, and those after it until the deletions are read, do
not undelete (and no new index is created), they are those of the commit, or the file is not found. -/
theorem c31_deletions_partial (fis : Fis.FIS) (now : Nat) (a b mid : List Ev) {ops0 ops1 ops2 obs0 obs1 obs2 wa w0 w1}
    (ha : run (start fis now) a = some (ops0, obs0, wa)) (hq : wa.mem = none) (hb : run wa b = some (ops1, obs1, w0)) (hub : ∀ i, Ev.undelete i ∉ b)
    (hm : run w0 mid = some (ops2, obs2, w1)) (hum : ∀ i, Ev.undelete i ∉ mid) (hc : ∀ fis now, Ev.create fis now ∉ mid)
    (si : SI) (hsi : si ∈ w0.disk.segs) (n : Name) (hn : segDeletions si = some n) :
    fileOf w1.dir n = none ∨ ∃ f, fileOf w0.dir n = some f ∧ fileOf w1.dir n = some f := by
  obtain ⟨ia, -, -, -⟩ := run_ok (dels := false) (inv_start _ fis now) (fun h => by cases h) ha
  obtain ⟨i1, -, -, -⟩ := run_ok (dels := true) (inv_quiet ia hq) (fun _ => hub) hb
  obtain ⟨i2, p2, l2, -⟩ := run_ok (dels := true) i1 (fun _ => hum) hm
  have hf0 := deletions_frozen i1.wf hsi hn
  obtain ⟨hf1, hlk⟩ := l2 hc n hf0
  cases hl : lookupName w1.dir.names n with
  | none => left; simp [fileOf, hl]
  | some i =>
    right
    rw [hl] at hlk
    rcases hlk with hlk | hlk
    · obtain ⟨f, hp⟩ := pin_of i1.dir hlk.symm hf0
      have hp1 := p2 i f hp
      exact ⟨f, by simp [fileOf, ← hlk, hp.file], by simp [fileOf, hl, hp1.file]⟩
    · cases hlk

/-! ### A history -/

def snapFis : Fis.FIS := ⟨0, 0, 0, []⟩
def dotCfs : Name := [99, 102, 115]
/-- "_0.cfs" -/
def cfs0 : Name := [95, 48, 46, 99, 102, 115]
/-- "_0_0.del" -/
def del0 : Name := [95, 48, 95, 48, 46, 100, 101, 108]
/-- "_0_1.s0" -/
def norm01 : Name := [95, 48, 95, 49, 46, 115, 48]

/-- A writer makes a segment of three documents in a compound file, with norms; commits; deletes a document and changes
the norms of a field; commits. -/
def history31 : List Ev :=
  [.begin, .newSeg 3, .normOut 0 0, .write 0 [7], .closeOut 0, .out 0 dotCfs, .write 1 [1, 2, 3], .closeOut 1, .compound 0,
   .segOut 0, .write 2 [0], .closeOut 2, .commit, .genOut, .write 3 [0], .closeOut 3,
   .delOut 0, .write 4 [5], .closeOut 4, .normOut 0 0, .write 5 [8, 8], .closeOut 5, .segOut 1, .closeOut 6, .commit]

/-- Then it merges the segment with a new one, removes the files, and stops. -/
def merge31 : List Ev :=
  [.newSeg 2, .out 1 dotCfs, .write 7 [9, 9], .closeOut 7, .compound 1, .drop 0 1, .segOut 2, .closeOut 8, .commit,
   .remove cfs0, .remove del0, .remove norm01, .stop, .create snapFis 0, .begin, .newSeg 1, .out 0 dotCfs, .write 9 [4, 4, 4, 4], .closeOut 9, .commit]

example : ∃ ops obs w, run (start snapFis 0) history31 = some (ops, obs, w) ∧ w.disk.segs = [⟨[95, 48], 3, 0, [1], true⟩] ∧
    segStreams ⟨[95, 48], 3, 0, [1], true⟩ = .ok [cfs0, norm01] ∧ segDeletions ⟨[95, 48], 3, 0, [1], true⟩ = some del0 ∧
    fileOf w.dir cfs0 = some [1, 2, 3] ∧ fileOf w.dir norm01 = some [8, 8] ∧ fileOf w.dir del0 = some [5] ∧
    (∃ ops2 obs2 w2, run w ([.openIn cfs0, .openIn norm01] ++ merge31 ++ [.openIn cfs0, .read 0 0 3, .read 1 0 2, .read 2 0 4]) = some (ops2, obs2, w2) ∧
      obs2.drop (obs2.length - 3) = [.bytes [1, 2, 3], .bytes [8, 8], .bytes [4, 4, 4, 4]]) :=
  ⟨_, _, _, rfl, rfl, rfl, rfl, rfl, rfl, rfl, _, _, _, rfl, rfl⟩

/-- The hypotheses of the theorem on deletions: a session begins, commits deletions, and goes on to
delete more and to merge while the reader is being opened. -/
example : ∃ ops obs w0 ops2 obs2 w1, run (start snapFis 0) [] = some ([], [], start snapFis 0) ∧ (start snapFis 0).mem = none ∧
    run (start snapFis 0) history31 = some (ops, obs, w0) ∧ (∀ i, Ev.undelete i ∉ history31) ∧
    run w0 [.delOut 0, .write 7 [6], .closeOut 7, .commit] = some (ops2, obs2, w1) ∧
    fileOf w0.dir del0 = some [5] ∧ fileOf w1.dir del0 = some [5] ∧ w1.disk.segs = [⟨[95, 48], 3, 1, [1], true⟩] := by
  refine ⟨_, _, _, _, _, _, rfl, rfl, rfl, fun i h => ?_, rfl, rfl, rfl, rfl⟩
  simp [history31] at h

/-- **C31 is violated while a reader is being opened, by undeleting.** A reader reads the segments
file. Before it reads the deletions, another process undeletes all documents, commits, deletes
another document and commits. The name of the file of deletions is the one it was: the reader gets the
segments of the old commit with the deletions of the new one. -/
theorem c31_violated_undelete : ∃ mid ops1 obs1 w0 ops2 obs2 w1 si n,
    run (start snapFis 0) history31 = some (ops1, obs1, w0) ∧ run w0 mid = some (ops2, obs2, w1) ∧ (∀ fis now, Ev.create fis now ∉ mid) ∧
    si ∈ w0.disk.segs ∧ segDeletions si = some n ∧ fileOf w0.dir n = some [5] ∧ fileOf w1.dir n = some [6] := by
  refine ⟨[.undelete 0, .commit, .delOut 0, .write 7 [6], .closeOut 7, .commit], _, _, _, _, _, _, ⟨[95, 48], 3, 0, [1], true⟩, del0, rfl, rfl, ?_, ?_, rfl, rfl, rfl⟩
  · intro fis now h; simp at h
  · exact List.mem_cons_self

/-- **C31 is violated while a reader is being opened, by creating the index anew.** Segment names
begin again at "_0": the reader of the old commit opens the files of the new one. -/
theorem c31_violated_create : ∃ mid ops1 obs1 w0 ops2 obs2 w1 si ns,
    run (start snapFis 0) history31 = some (ops1, obs1, w0) ∧ run w0 mid = some (ops2, obs2, w1) ∧
    si ∈ w0.disk.segs ∧ segStreams si = .ok ns ∧ cfs0 ∈ ns ∧ fileOf w0.dir cfs0 = some [1, 2, 3] ∧ fileOf w1.dir cfs0 = some [4, 4] := by
  refine ⟨[.stop, .create snapFis 0, .begin, .newSeg 1, .out 0 dotCfs, .write 7 [4, 4], .closeOut 7, .compound 0, .commit],
    _, _, _, _, _, _, ⟨[95, 48], 3, 0, [1], true⟩, [cfs0, norm01], rfl, rfl, ?_, rfl, List.mem_cons_self, rfl, rfl⟩
  exact List.mem_cons_self

#print axioms c31_snapshot_partial
#print axioms c31_deletions_partial
#print axioms c31_violated_undelete
#print axioms c31_violated_create
end Ferret.Props
