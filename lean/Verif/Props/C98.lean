import Verif.Lemmas.CopyStore
import Verif.Props.C90

/-!
C98: a store copied into memory has the same files.

The code departs from the English property: from a store in memory no file is copied whose name begins with "ferret-", whether it is a lock
or not (`c98_foreign_lost`); from one on disk none whose name begins with a character up to '/' (`c98_hidden_lost`); a file of 2^32
bytes or more is cut (`c98_long_cut`), and with a file of 2^31 bytes or more, but less than that, nothing is copied (`c98_long_fails`);
and a store that is changed meanwhile is copied as it never was (`c98_changed_meanwhile`), or an error is raised and nothing comes of it
(`c98_removed_meanwhile`).
-/

namespace Ferret.Props
open Ferret Ferret.Spec Ferret.CopyStore

/-- All calls that the directory `t` allows return on the store `d` in memory what they return there. -/
def StandsFor (d : RamDir.Dir) (t : DState) : Prop :=
  ∀ (ops : List DOp) (obs : List DObs) (t' : DState), drun t ops = some (obs, t') → ∃ d', RamDir.doOps d ops = .ok (obs, d')

theorem standsFor_of {d : RamDir.Dir} {t : DState} (h : RamDir.DRel d t) : StandsFor d t := by
  intro ops obs t' hr
  obtain ⟨d', h1, _⟩ := RamDir.doOps_spec ops h hr
  exact ⟨d', h1⟩

theorem mem_each {d : RamDir.Dir} {s : DState} (h2 : RamDir.DRel d s) : ∃ l, RamDir.each d = .ok l ∧ l.Nodup ∧
      ∀ n, n ∈ l ↔ (fileOf s n).isSome ∧ ¬ lockPrefix <+: n := by
  obtain ⟨l, h3, h4⟩ := RamDir.each_spec h2
  refine ⟨l, h3, ?_, ?_⟩
  · rw [h4.nodup_iff]
    refine List.Nodup.sublist List.filter_sublist ?_
    have := h2.ht.dist
    simp only [List.Nodup, List.pairwise_map]
    refine List.Pairwise.imp ?_ this
    intro a b hab
    simpa [RamDir.strFns] using hab
  · intro n
    rw [h4.mem_iff, List.mem_filter]
    have e1 : n ∈ s.names.map (·.1) ↔ (fileOf s n).isSome := by
      unfold fileOf
      cases hl : lookupName s.names n with
      | none =>
        simp only [Option.bind_none, Option.isSome_none, Bool.false_eq_true, iff_false]
        intro hm
        obtain ⟨p, hp, e⟩ := List.mem_map.1 hm
        exact RamDir.lookup_none hl p hp e
      | some i =>
        have hlt := h2.nlt _ (RamDir.lookup_some hl)
        simp only [Option.bind_some, List.getElem?_eq_getElem hlt, Option.isSome_some, iff_true]
        exact List.mem_map.2 ⟨_, RamDir.lookup_some hl, rfl⟩
    have e2 : (n.take lockPrefix.length = lockPrefix) ↔ lockPrefix <+: n := by
      rw [List.prefix_iff_eq_take]; exact eq_comm
    rw [e1]
    simp [e2]

/-- **Copying a store in memory.** After any history of calls of a store in memory whose files have less than 2^31 − 1 bytes, the copy
has the same files with the same contents, all but those whose names begin with "ferret-", and all calls of the copy return what they
return in such a directory; and the store copied is as before. Missing: other files (false, see below). -/
theorem c98_copy_memory_partial (ops : List DOp) (obs : List DObs) (s : DState) (h : drun emptyDir ops = some (obs, s))
    (hlen : ∀ n f, fileOf s n = some f → f.length < 2147483647) :
    ∃ d d' m t k, RamDir.doOps RamDir.new ops = .ok (obs, d) ∧ openAndCopy ramSource d = .ok (d', m) ∧
      CopyOf (fun n => ¬ lockPrefix <+: n) s t ∧ StandsFor m t ∧ StandsFor d' (readBy s k) := by
  obtain ⟨d, h1, h2⟩ := RamDir.doOps_spec ops RamDir.drel_new h
  obtain ⟨l, h3, h4, h5⟩ := mem_each h2
  obtain ⟨d', m, t, a, q, r, g1, g2, g3, g4, g5⟩ := openAndCopy_spec (keep := fun n => ¬ lockPrefix <+: n) ram_reads h2 h3 h4 h5
    (fun n f _ hf => by
      have := hlen n f hf
      rw [intLen_small (by omega)]
      exact ⟨by omega, by omega⟩)
  refine ⟨d, d', m, t, l.length, h1, a, ⟨g1, ?_, g3, g4, g5⟩, standsFor_of r, standsFor_of q⟩
  intro n hk
  rw [g2 n hk]
  cases hf : fileOf s n with
  | none => rfl
  | some f =>
    have := hlen n f hf
    simp only [Option.map_some, part_small (by omega : f.length < 2147483648)]

/-- **Copying a store on disk.** The same for a store on disk with the names and calls of C90: all files but the locks are copied, and
the store on disk goes on as before. Missing: other names (false, see below) and longer files (false, see below). -/
theorem c98_copy_disk_partial (os : FsDir.OS) (dir : Name) (h0 : FsDir.Fresh os dir) (ops : List DOp) (obs : List DObs) (s : DState)
    (hok : callsOk (fun n => PlainName dir n ∧ os.deny (FsDir.joinPath dir n) = false) emptyDir ops) (h : drun emptyDir ops = some (obs, s))
    (hlen : ∀ n f, fileOf s n = some f → f.length < 2147483647) :
    ∃ os1 os2 m t k, FsDir.doOps dir os ops = .ok (obs, os1) ∧ openAndCopy (diskSource dir) os1 = .ok (os2, m) ∧
      CopyOf (fun n => ¬ LockName n) s t ∧ StandsFor m t ∧
      (∀ (more : List DOp) (obs' : List DObs) (s' : DState), callsOk (fun n => PlainName dir n ∧ os.deny (FsDir.joinPath dir n) = false) (readBy s k) more →
        drun (readBy s k) more = some (obs', s') → ∃ os3, FsDir.doOps dir os2 more = .ok (obs', os3)) := by
  obtain ⟨os1, h1, hr⟩ := FsDir.doOps_spec h0 ops (FsDir.frel_init h0) hok h
  obtain ⟨d, _, hd⟩ := RamDir.doOps_spec ops RamDir.drel_new h
  have hnd : (s.names.map (·.1)).Nodup := by
    have := hd.ht.dist
    simp only [List.Nodup, List.pairwise_map]
    refine List.Pairwise.imp ?_ this
    intro a b hab
    simpa [RamDir.strFns] using hab
  have hmem : ∀ n, n ∈ FsDir.each os1 dir ↔ (fileOf s n).isSome ∧ ¬ LockName n := by
    intro n
    unfold FsDir.each
    rw [FsDir.list_eq h0 hr, List.mem_filter]
    have e1 : n ∈ s.names.map (·.1) ↔ (fileOf s n).isSome := by
      unfold fileOf
      cases hl : lookupName s.names n with
      | none =>
        simp only [Option.bind_none, Option.isSome_none, Bool.false_eq_true, iff_false]
        intro hm
        obtain ⟨p, hp, e⟩ := List.mem_map.1 hm
        exact RamDir.lookup_none hl p hp e
      | some i =>
        have hlt := hr.bound _ (RamDir.lookup_some hl)
        simp only [Option.bind_some, List.getElem?_eq_getElem hlt, Option.isSome_some, iff_true]
        exact List.mem_map.2 ⟨_, RamDir.lookup_some hl, rfl⟩
    constructor
    · rintro ⟨a, b⟩
      rw [Bool.and_eq_true] at b
      refine ⟨e1.1 a, fun hk => ?_⟩
      rw [(FsDir.lockName_shape hk).1] at b
      simp at b
    · rintro ⟨a, b⟩
      have a' := e1.2 a
      obtain ⟨x, hx, rfl⟩ := List.mem_map.1 a'
      have hg := (hr.good x hx).1
      have hsh : FsDir.shown x.1 = true := hg.first
      refine ⟨a', ?_⟩
      rcases hg.kind with hi | hi
      · rw [hsh, index_not_lock hi]; rfl
      · exact absurd hi b
  obtain ⟨os2, m, t, a, q, r, g1, g2, g3, g4, g5⟩ := openAndCopy_spec (keep := fun n => ¬ LockName n) (l := FsDir.each os1 dir) (disk_reads h0) hr rfl
    (by unfold FsDir.each; rw [FsDir.list_eq h0 hr]; exact hnd.sublist List.filter_sublist) hmem
    (fun n f _ hf => by
      have := hlen n f hf
      rw [intLen_small (by omega)]
      exact ⟨by omega, by omega⟩)
  refine ⟨os1, os2, m, t, (FsDir.each os1 dir).length, h1, a, ⟨g1, ?_, g3, g4, g5⟩, standsFor_of r, ?_⟩
  · intro n hk
    rw [g2 n hk]
    cases hf : fileOf s n with
    | none => rfl
    | some f =>
      have := hlen n f hf
      simp only [Option.map_some, part_small (by omega : f.length < 2147483648)]
  · intro more obs' s' hok' hrun
    obtain ⟨os3, h3, _⟩ := FsDir.doOps_spec h0 more q hok' hrun
    exact ⟨os3, h3⟩

/-! ### A case -/

/-- Two index files and a lock, and a stream that is still open. -/
def copiedOps : List DOp :=
  [.touch writeLock, .openOut cfsName, .write 0 [1, 2, 3], .closeOut 0, .openOut segsName, .write 1 [7, 8], .closeOut 1, .openIn segsName]

/-- The lengths of all the files of a directory are small. -/
theorem lens_of {s : DState} (h : s.files.all (fun f => decide (f.length < 2147483647)) = true) : ∀ n f, fileOf s n = some f → f.length < 2147483647 := by
  intro n f hf
  unfold fileOf at hf
  rw [Option.bind_eq_some_iff] at hf
  obtain ⟨i, _, hi⟩ := hf
  simpa using List.all_eq_true.1 h f (List.mem_of_getElem? hi)

example : ∃ r : List DObs × DState, drun emptyDir copiedOps = some r ∧ (∀ n f, fileOf r.2 n = some f → f.length < 2147483647) ∧
    fileOf r.2 cfsName = some [1, 2, 3] ∧ fileOf r.2 segsName = some [7, 8] ∧ fileOf r.2 writeLock = some [] :=
  ⟨_, rfl, lens_of (by decide), by decide, by decide, by decide⟩

example : callsOk (fun n => PlainName [100] n ∧ osExample.deny (FsDir.joinPath [100] n) = false) emptyDir copiedOps := by
  refine checkCalls_ok (p := fun n => n == cfsName || n == segsName || n == writeLock) ?_ copiedOps emptyDir (by decide +kernel)
  intro n hn
  simp only [Bool.or_eq_true, beq_iff_eq] at hn
  rcases hn with (rfl | rfl) | rfl
  · exact ⟨cfs_plain, by decide⟩
  · exact ⟨segs_plain, by decide⟩
  · exact ⟨lock_plain, by decide⟩

/-- What calls of a copy return, from a store with this history. -/
def copyThen (ops more : List DOp) : Res (List DObs) :=
  RamDir.doOps RamDir.new ops >>= fun r => openAndCopy ramSource r.2 >>= fun c => RamDir.doOps c.2 more >>= fun r => .ok r.1

/-- The same from a store on disk. -/
def copyDiskThen (os : FsDir.OS) (dir : Name) (ops more : List DOp) : Res (List DObs) :=
  FsDir.doOps dir os ops >>= fun r => openAndCopy (diskSource dir) r.2 >>= fun c => RamDir.doOps c.2 more >>= fun r => .ok r.1

/-- The case, run: the copies have the files and not the lock. -/
example : copyThen copiedOps [.count, .openIn cfsName, .read 0 0 3, .openIn segsName, .read 1 0 2, .exist writeLock] =
      .ok [.num 2, .num 0, .bytes [1, 2, 3], .num 1, .bytes [7, 8], .bool false] ∧
    copyDiskThen osExample [100] copiedOps [.count, .openIn cfsName, .read 0 0 3, .openIn segsName, .read 1 0 2, .exist writeLock] =
      .ok [.num 2, .num 0, .bytes [1, 2, 3], .num 1, .bytes [7, 8], .bool false] := by
  decide +kernel

/-! ### What is not copied -/

/-- "ferret-a.cfs" -/
def foreignName : Name := lockPrefix ++ [97, 46, 99, 102, 115]

/-- A file whose name begins with "ferret-" is copied from a store on disk, and from a store in memory it is not. -/
theorem c98_foreign_lost :
    copyThen [.openOut foreignName, .write 0 [1], .closeOut 0] [.exist foreignName] = .ok [.bool false] ∧
    copyDiskThen osExample [100] [.openOut foreignName, .write 0 [1], .closeOut 0] [.exist foreignName] = .ok [.bool true] := by
  decide +kernel

/-- A file whose name begins with "-" is copied from a store in memory, and from a store on disk it is not. -/
theorem c98_hidden_lost :
    copyThen [.openOut [45, 97], .write 0 [1], .closeOut 0] [.exist [45, 97]] = .ok [.bool true] ∧
    copyDiskThen osExample [100] [.openOut [45, 97], .write 0 [1], .closeOut 0] [.exist [45, 97]] = .ok [.bool false] := by
  decide +kernel

/-! ### Long files -/

/-- A directory with one file. -/
def oneFile (n : Name) (f : List Byte) : DState := ⟨[f], [(n, 0)], [none], []⟩

theorem oneFile_run (n : Name) (f : List Byte) : drun emptyDir [.openOut n, .write 0 f, .closeOut 0] = some ([.num 0, .unit, .unit], oneFile n f) := by
  simp [drun, dstep, emptyDir, lookupName, writeAt, oneFile]

theorem oneFile_of (n m : Name) (f : List Byte) : fileOf (oneFile n f) m = if n = m then some f else none := by
  by_cases h : n = m
  · simp [fileOf, oneFile, lookupName, h]
  · have : (n == m) = false := by simpa using h
    simp [fileOf, oneFile, lookupName, h, this]

/-- **A file of 2^32 bytes and more is cut**: of 2^32 + k bytes, where k is less than 2^31 − 1, only the first k are copied, and nothing
is raised. -/
theorem c98_long_cut (n : Name) (f : List Byte) (k : Nat) (hn : ¬ lockPrefix <+: n) (hf : f.length = 4294967296 + k) (hk : k < 2147483647) :
    ∃ d d' m t, RamDir.doOps RamDir.new [.openOut n, .write 0 f, .closeOut 0] = .ok ([.num 0, .unit, .unit], d) ∧
      openAndCopy ramSource d = .ok (d', m) ∧ fileOf t n = some (f.take k) ∧ StandsFor m t := by
  have hi : intLen f.length = k := by
    unfold intLen
    rw [hf, BitVec.toInt_eq_toNat_cond]
    simp only [BitVec.toNat_ofNat]
    split <;> omega
  obtain ⟨d, h1, h2⟩ := RamDir.doOps_spec _ RamDir.drel_new (oneFile_run n f)
  obtain ⟨l, h3, h4, h5⟩ := mem_each h2
  obtain ⟨d', m, t, a, q, r, g1, g2, g3, g4, g5⟩ := openAndCopy_spec (keep := fun n => ¬ lockPrefix <+: n) ram_reads h2 h3 h4 h5
    (fun n' f' _ hf' => by
      rw [oneFile_of] at hf'
      split at hf'
      · cases hf'
        rw [hi]
        exact ⟨by omega, by omega⟩
      · cases hf')
  refine ⟨d, d', m, t, h1, a, ?_, standsFor_of r⟩
  rw [g2 n hn, oneFile_of, if_pos rfl]
  simp only [Option.map_some, part, hi, Int.toNat_natCast]

example : ∃ (f : List Byte), f.length = 4294967296 + 5 := ⟨List.replicate (4294967296 + 5) 0, List.length_replicate⟩

/-- **A file of 2^31 bytes and more cannot be copied**: with a file of at least 2^31 bytes and less than 2^32 − 1 an error is raised. -/
theorem c98_long_fails (n : Name) (f : List Byte) (hn : ¬ lockPrefix <+: n) (h1 : 2147483648 ≤ f.length) (h2 : f.length < 4294967295) :
    ∃ d, RamDir.doOps RamDir.new [.openOut n, .write 0 f, .closeOut 0] = .ok ([.num 0, .unit, .unit], d) ∧
      openAndCopy ramSource d = .raise .exception := by
  have hi : intLen f.length = (f.length : Int) - 4294967296 := by
    unfold intLen
    rw [BitVec.toInt_eq_toNat_cond]
    simp only [BitVec.toNat_ofNat]
    split <;> omega
  obtain ⟨d, a1, r⟩ := RamDir.doOps_spec _ RamDir.drel_new (oneFile_run n f)
  obtain ⟨l, h3, h4, h5⟩ := mem_each r
  refine ⟨d, a1, ?_⟩
  have hl : l = [n] := by
    have hm : ∀ m, m ∈ l ↔ m = n := by
      intro m
      rw [h5 m, oneFile_of]
      constructor
      · rintro ⟨a, _⟩
        by_cases h : n = m
        · exact h.symm
        · rw [if_neg h] at a; cases a
      · rintro rfl
        exact ⟨by rw [if_pos rfl]; rfl, hn⟩
    match l, h4, hm with
    | [], _, hm => exact absurd ((hm n).2 rfl) (by simp)
    | [a], _, hm => rw [(hm a).1 (by simp)]
    | a :: b :: r, h4, hm =>
      have ea := (hm a).1 (by simp)
      have eb := (hm b).1 (by simp)
      rw [ea, eb] at h4
      simp at h4
  obtain ⟨d1, b1, _⟩ := RamDir.doOp_spec RamDir.drel_new (.openOut n) (o := .num 0) (s' := ⟨[[]], [(n, 0)], [some (0, 0)], []⟩) (by simp [dstep, emptyDir, lookupName])
  have hlk : lookupName (oneFile n f).names n = some 0 := by simp [oneFile, lookupName]
  obtain ⟨x1, c1, q1⟩ := ram_reads.openIn r hlk
  obtain ⟨x2, c2, q2⟩ := ram_reads.length (f := f) q1 hlk rfl
  have hb : bufferFor (intLen f.length) = .raise .exception := by
    rw [hi]
    unfold bufferFor
    rw [if_neg (by omega), if_pos (by omega)]
  simp only [openAndCopy, show ramSource.each d = .ok l from h3, hl, Res.ok_bind, copyNames, copyFile, b1, c1, c2, hb]
  rfl

example : ∃ (f : List Byte), 2147483648 ≤ f.length ∧ f.length < 4294967295 := ⟨List.replicate 2147483648 0, by rw [List.length_replicate]; decide⟩

/-! ### Stores that are changed meanwhile -/

/-- Between the copying of two files the store is changed. -/
def copyBetween (ops : List DOp) (a b : Name) (between : List DOp) (more : List DOp) : Res (List DObs) :=
  RamDir.doOps RamDir.new ops >>= fun r => copyNames ramSource [a] (r.2, RamDir.new) >>= fun c =>
  RamDir.doOps c.1 between >>= fun r => copyNames ramSource [b] (r.2, c.2) >>= fun c => RamDir.doOps c.2 more >>= fun r => .ok r.1

/-- Two files that hold [1] are copied; between them both are set to [2]. The copy holds [1] in one and [2] in the other, which no state
of the store did that could be seen while both were written under a lock. -/
theorem c98_changed_meanwhile :
    copyBetween [.openOut [97], .write 0 [1], .closeOut 0, .openOut [98], .write 1 [1], .closeOut 1] [97] [98]
      [.openOut [97], .write 2 [2], .closeOut 2, .openOut [98], .write 3 [2], .closeOut 3]
      [.openIn [97], .read 0 0 1, .openIn [98], .read 1 0 1] = .ok [.num 0, .bytes [1], .num 1, .bytes [2]] := by
  decide +kernel

/-- A file that is listed and removed before its turn: an error is raised. -/
theorem c98_removed_meanwhile :
    (RamDir.doOps RamDir.new [.touch [97], .touch [98]] >>= fun r => ramSource.each r.2 >>= fun l => .ok l) = .ok [[97], [98]] ∧
    copyBetween [.touch [97], .touch [98]] [97] [98] [.remove [98]] [] = .raise .fileNotFound := by
  decide +kernel

#print axioms c98_copy_memory_partial
#print axioms c98_copy_disk_partial
#print axioms c98_foreign_lost
#print axioms c98_hidden_lost
#print axioms c98_long_cut
#print axioms c98_long_fails
#print axioms c98_changed_meanwhile
#print axioms c98_removed_meanwhile
end Ferret.Props
