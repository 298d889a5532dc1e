import Verif.Props.C10
import Verif.Lemmas.FsDir
import Verif.Lemmas.FsShare

/-!
C90: a store on disk behaves as a store in memory does, for the files of an index.

The code departs from the English property: touching a file that exists cuts it on disk and does nothing in memory, a file that cannot be
touched on disk is not reported, the length of a file that does not exist is 0 in memory and an error on disk, paths longer than
1023 bytes are cut and stand for each other, a store on disk is cleared only of the files of an index, closing one removes the locks that
others hold, and a store can be closed for good while another thread has opened it.
-/

namespace Ferret.Props
open Ferret.Spec

/-- What the calls give, without the state after them. -/
def obsSeen {α β : Type} : Res (α × β) → Option α
  | .ok r => some r.1
  | _ => none

/-- **On disk as in memory.** Any history of calls with names of index files and locks, that touches only files that do not exist and
asks only for the lengths of files that do, gives the same on disk, in a directory that is empty at first, as in memory: what the
directory of Spec/Dir gives. The files outside the directory are as they were. Missing: files that are touched again, lengths
of files that do not exist, and other names (all false, see below). -/
theorem c90_same_partial (os : FsDir.OS) (dir : Name) (h0 : FsDir.Fresh os dir) (ops : List DOp) (obs : List DObs) (s : DState)
    (hok : callsOk (fun n => PlainName dir n ∧ os.deny (FsDir.joinPath dir n) = false) emptyDir ops) (h : drun emptyDir ops = some (obs, s)) :
    ∃ os' d, FsDir.doOps dir os ops = .ok (obs, os') ∧ RamDir.doOps RamDir.new ops = .ok (obs, d) ∧
      (∀ p, FsDir.nameIn dir p = none → os'.find p = os.find p) ∧ os.files <+: os'.files ∧
      (∀ n i, lookupName s.names n = some i → os'.find (dir ++ 47 :: n) = some (i + os.files.length) ∧ os'.files[i + os.files.length]? = s.files[i]?) := by
  obtain ⟨os', h1, hr⟩ := FsDir.doOps_spec h0 ops (FsDir.frel_init h0) hok h
  obtain ⟨d, h2, _⟩ := RamDir.doOps_spec ops RamDir.drel_new h
  refine ⟨os', d, h1, h2, ?_, by rw [hr.files]; exact List.prefix_append _ _, ?_⟩
  · intro p hp
    unfold FsDir.OS.find
    rw [hr.paths, List.find?_append]
    have : (s.names.map (FsDir.bindAs dir os.files.length)).find? (fun x => x.1 == p) = none := by
      rw [List.find?_eq_none]
      intro x hx
      rw [List.mem_map] at hx
      obtain ⟨y, hy, rfl⟩ := hx
      intro hh
      have : FsDir.joinPath dir y.1 = p := by simpa [FsDir.bindAs] using hh
      rw [← this, FsDir.nameIn_join (hr.good y hy).1] at hp
      exact absurd hp (by simp)
    rw [this]
    rfl
  · intro n i hn
    have hg := (hr.good _ (FsDir.lookup_mem hn)).1
    refine ⟨?_, FsDir.files_at hr i⟩
    rw [← FsDir.join_eq hg, FsDir.find_eq h0 hr hg, hn]
    rfl

/-- Names of index files are not those of locks. -/
theorem index_not_lock {n : Name} (h : IndexName n) : isLockName n = false := by
  cases hl : isLockName n with
  | false => rfl
  | true =>
    exfalso
    simp only [isLockName, Bool.and_eq_true, decide_eq_true_eq, beq_iff_eq] at hl
    obtain ⟨l1, l2⟩ := hl
    have e := (List.take_append_drop (n.length - 4) n).symm
    rw [l2] at e
    rcases h with ⟨stem, ext, h1, h2, h3⟩ | ⟨h1, _⟩
    · have a1 := Dlr.splitLast_append stem h2
      have a2 := Dlr.splitLast_append (c := 46) (n.take (n.length - 4)) (b := [108, 99, 107]) (by decide)
      rw [← h1] at a1
      rw [show n.take (n.length - 4) ++ 46 :: [108, 99, 107] = n from e.symm, a1] at a2
      simp only [Option.some.injEq, Prod.mk.injEq] at a2
      rw [a2.2] at h3
      rcases h3 with h3 | ⟨c, d, r, h3, h4, _⟩
      · exact absurd h3 (by decide)
      · cases h3
        exact absurd h4 (by decide)
    · exact h1 (by rw [e]; exact List.mem_append_right _ (by decide))

/-- **The names that are given.** With such a history, and when no index file has a name that begins with "ferret-", the same names are
passed to the function given to `each` on disk and in memory, perhaps in another order: those of the files that are no locks. -/
theorem c90_each (os : FsDir.OS) (dir : Name) (h0 : FsDir.Fresh os dir) (ops : List DOp) (obs : List DObs) (s : DState)
    (hok : callsOk (fun n => PlainName dir n ∧ os.deny (FsDir.joinPath dir n) = false) emptyDir ops) (h : drun emptyDir ops = some (obs, s))
    (hn : ∀ n, (lookupName s.names n).isSome → lockPrefix <+: n → LockName n) :
    ∃ os' d l, FsDir.doOps dir os ops = .ok (obs, os') ∧ RamDir.doOps RamDir.new ops = .ok (obs, d) ∧ RamDir.each d = .ok l ∧
      (FsDir.each os' dir).Perm l ∧ ∀ n, n ∈ FsDir.each os' dir ↔ (lookupName s.names n).isSome ∧ ¬ LockName n := by
  obtain ⟨os', h1, hr⟩ := FsDir.doOps_spec h0 ops (FsDir.frel_init h0) hok h
  obtain ⟨d, h2, hd⟩ := RamDir.doOps_spec ops RamDir.drel_new h
  obtain ⟨l, h3, h4⟩ := RamDir.each_spec hd
  have hl : FsDir.each os' dir = (s.names.map (·.1)).filter (fun n => !decide (n.take lockPrefix.length = lockPrefix)) := by
    unfold FsDir.each
    rw [FsDir.list_eq h0 hr]
    apply List.filter_congr
    intro n hm
    obtain ⟨x, hx, rfl⟩ := List.mem_map.1 hm
    have hg := (hr.good x hx).1
    have hsome : (lookupName s.names x.1).isSome := by
      unfold lookupName
      rw [Option.isSome_map, List.find?_isSome]
      exact ⟨x, hx, by simp⟩
    have hsh : FsDir.shown x.1 = true := hg.first
    rw [hsh, Bool.true_and]
    congr 1
    have e2 : (x.1.take lockPrefix.length = lockPrefix) ↔ lockPrefix <+: x.1 := by
      rw [List.prefix_iff_eq_take]; exact eq_comm
    rw [Bool.eq_iff_iff, decide_eq_true_eq, e2]
    constructor
    · intro hk
      rcases hg.kind with hi | ⟨w, hw⟩
      · rw [index_not_lock hi] at hk; exact absurd hk (by simp)
      · rw [hw, List.append_assoc]; exact List.prefix_append _ _
    · intro hp
      exact (FsDir.lockName_shape (hn _ hsome hp)).1
  refine ⟨os', d, l, h1, h2, h3, by rw [hl]; exact h4.symm, ?_⟩
  intro n
  rw [hl, List.mem_filter]
  have e1 : n ∈ s.names.map (·.1) ↔ (lookupName s.names n).isSome := by
    unfold lookupName
    rw [Option.isSome_map, List.find?_isSome, List.mem_map]
    constructor
    · rintro ⟨x, hx, rfl⟩; exact ⟨x, hx, by simp⟩
    · rintro ⟨x, hx, e⟩; exact ⟨x, hx, by simpa using e⟩
  have e2 : (n.take lockPrefix.length = lockPrefix) ↔ lockPrefix <+: n := by
    rw [List.prefix_iff_eq_take]; exact eq_comm
  rw [e1]
  simp only [Bool.not_eq_true', decide_eq_false_iff_not, e2]
  constructor
  · rintro ⟨a, b⟩
    refine ⟨a, fun hk => b ?_⟩
    obtain ⟨w, hw⟩ := hk
    rw [hw, List.append_assoc]; exact List.prefix_append _ _
  · rintro ⟨a, b⟩
    exact ⟨a, fun hk => b (hn n a hk)⟩

/-- Removing files does not bring others. -/
theorem find_remove {os : FsDir.OS} {p q : FsDir.Path} (h : os.find p = none ∨ p = q) : (os.remove q).2.find p = none := by
  unfold FsDir.OS.remove FsDir.OS.find
  rw [Option.map_eq_none_iff, List.find?_eq_none]
  intro x hx
  have hx := List.mem_filter.1 hx
  rcases h with h | h
  · unfold FsDir.OS.find at h
    rw [Option.map_eq_none_iff, List.find?_eq_none] at h
    exact h x hx.1
  · rw [h]
    simpa using hx.2

theorem find_removes {dir : FsDir.Path} {p : FsDir.Path} : ∀ (l : List Name) (os : FsDir.OS), (os.find p = none ∨ ∃ n ∈ l, FsDir.joinPath dir n = p) →
    (l.foldl (fun s n => (s.remove (FsDir.joinPath dir n)).2) os).find p = none := by
  intro l
  induction l with
  | nil => 
    intro os h
    rcases h with h | ⟨n, hn, _⟩
    · exact h
    · exact absurd hn (by simp)
  | cons m l ih =>
    intro os h
    rw [List.foldl_cons]
    apply ih
    rcases h with h | ⟨n, hn, he⟩
    · exact .inl (find_remove (.inl h))
    · rcases List.mem_cons.1 hn with rfl | hn
      · exact .inl (find_remove (.inr he.symm))
      · exact .inr ⟨n, hn, he⟩

/-- **Closing a store removes all locks.** Whoever made it, and whoever holds it: after a store is closed for good there is no lock
file in its directory. So it does not keep others out any more (C11). -/
theorem c90_close_unlocks (os : FsDir.OS) (dir n : Name) (hl : LockName n) (hs : (47 : Byte) ∉ n) (hf : dir.length + 1 + n.length ≤ 1023) :
    (FsDir.destroy os dir).find (dir ++ 47 :: n) = none := by
  have hj : FsDir.joinPath dir n = dir ++ 47 :: n := by
    unfold FsDir.joinPath FsDir.maxPath
    rw [List.take_of_length_le]
    simp only [List.length_append, List.length_cons]
    omega
  unfold FsDir.destroy FsDir.clearLocks
  apply find_removes
  cases hp : os.find (dir ++ 47 :: n) with
  | none => exact .inl rfl
  | some i =>
    right
    refine ⟨n, ?_, hj⟩
    rw [List.mem_filter]
    refine ⟨?_, (FsDir.lockName_shape hl).1⟩
    unfold FsDir.OS.find at hp
    rw [Option.map_eq_some_iff] at hp
    obtain ⟨x, hx, _⟩ := hp
    have hm := List.mem_of_find?_eq_some hx
    have he : x.1 = dir ++ 47 :: n := by simpa using List.find?_some hx
    unfold FsDir.OS.list
    rw [List.mem_filterMap]
    refine ⟨x, hm, ?_⟩
    obtain ⟨w, hw⟩ := hl
    have hne : n ≠ [] := by rw [hw]; simp [lockPrefix]
    unfold FsDir.nameIn
    rw [he, if_pos (by rw [List.isPrefixOf_iff_prefix]; exact ⟨n, by simp⟩)]
    have hd : (dir ++ 47 :: n).drop (dir.length + 1) = n := by
      rw [show dir ++ 47 :: n = (dir ++ [47]) ++ n by simp, List.drop_left' (by simp)]
    simp only [hd]
    rw [if_neg (by
      rintro (a | a)
      · exact hne a
      · exact hs (by simpa using a))]

/-! ### A case -/

/-- A directory "d" in an operating system with another file. -/
def osExample : FsDir.OS := ⟨[[1]], [([120], 0)], [], [], fun p => p == [100, 47, 121, 46, 100, 101, 108], false⟩

theorem osExample_fresh : FsDir.Fresh osExample [100] := ⟨rfl, rfl, rfl, by intro x hx; simp only [osExample, List.mem_singleton] at hx; subst hx; decide⟩

/-- "_0.cfs", "segments" and "ferret-write.lck" -/
def cfsName : Name := [95, 48, 46, 99, 102, 115]
def segsName : Name := segmentsWord
def writeLock : Name := lockPrefix ++ [119, 114, 105, 116, 101] ++ lckExt

theorem cfs_plain : PlainName [100] cfsName :=
  ⟨.inl (.inl ⟨[95, 48], [99, 102, 115], rfl, by decide, .inl (by decide)⟩), by decide, by decide, by decide⟩
theorem segs_plain : PlainName [100] segsName := ⟨.inl (.inr ⟨by decide, List.prefix_refl _⟩), by decide, by decide, by decide⟩
theorem lock_plain : PlainName [100] writeLock := ⟨.inr ⟨_, rfl⟩, by decide, by decide, by decide⟩

/-- A lock is taken, two files are written, one is renamed onto the other while it is read. -/
def diskOps : List DOp :=
  [.touch writeLock, .openOut cfsName, .write 0 [1, 2, 3], .closeOut 0, .openOut segsName, .write 1 [7, 8], .closeOut 1, .openIn segsName,
   .rename cfsName segsName, .exist cfsName, .read 0 0 2, .openIn segsName, .read 1 1 2, .length segsName, .count, .remove cfsName,
   .openIn cfsName, .clear, .count, .read 1 0 1]

instance decCall (p : Name → Bool) (s : DState) (op : DOp) : Decidable (callOk (fun n => p n = true) s op) := by
  cases op <;> unfold callOk <;> infer_instance

/-- Going through a history. -/
def checkCalls (p : Name → Bool) : DState → List DOp → Bool
  | _, [] => true
  | s, op :: ops => decide (callOk (fun n => p n = true) s op) && match dstep s op with
    | some r => checkCalls p r.2 ops
    | none => true

theorem callOk_mono {g g' : Name → Prop} (hg : ∀ n, g n → g' n) {s : DState} : ∀ {op : DOp}, callOk g s op → callOk g' s op
  | .touch _, h => ⟨hg _ h.1, h.2⟩
  | .length _, h => ⟨hg _ h.1, h.2⟩
  | .exist _, h | .remove _, h | .openOut _, h | .openIn _, h => hg _ h
  | .rename _ _, h => ⟨hg _ h.1, hg _ h.2⟩
  | .count, _ | .write _ _, _ | .closeOut _, _ | .read _ _ _, _ | .closeIn _, _ | .clear, _ | .clearLocks, _ | .clearAll, _ => trivial

theorem checkCalls_ok {p : Name → Bool} {g : Name → Prop} (hg : ∀ n, p n = true → g n) : ∀ (ops : List DOp) (s : DState), checkCalls p s ops = true → callsOk g s ops := by
  intro ops
  induction ops with
  | nil => intro s _; trivial
  | cons op ops ih =>
    intro s h
    simp only [checkCalls, Bool.and_eq_true, decide_eq_true_eq] at h
    refine ⟨callOk_mono hg h.1, ?_⟩
    intro o s' hs
    rw [hs] at h
    exact ih s' h.2

theorem diskOps_ok : callsOk (fun n => PlainName [100] n ∧ osExample.deny (FsDir.joinPath [100] n) = false) emptyDir diskOps := by
  refine checkCalls_ok (p := fun n => n == cfsName || n == segsName || n == writeLock) ?_ diskOps emptyDir (by decide +kernel)
  intro n hn
  simp only [Bool.or_eq_true, beq_iff_eq] at hn
  rcases hn with (rfl | rfl) | rfl
  · exact ⟨cfs_plain, by decide⟩
  · exact ⟨segs_plain, by decide⟩
  · exact ⟨lock_plain, by decide +kernel⟩

example : FsDir.Fresh osExample [100] ∧ callsOk (fun n => PlainName [100] n ∧ osExample.deny (FsDir.joinPath [100] n) = false) emptyDir diskOps ∧
    (drun emptyDir diskOps).map (·.1) = some [.unit, .num 0, .unit, .unit, .num 1, .unit, .unit, .num 0, .unit, .bool false, .bytes [7, 8], .num 1,
      .bytes [2, 3], .num 3, .num 2, .bool false, .error, .unit, .num 1, .bytes [1]] ∧
    obsSeen (FsDir.doOps [100] osExample diskOps) = (drun emptyDir diskOps).map (·.1) :=
  ⟨osExample_fresh, diskOps_ok, by decide +kernel, by decide +kernel⟩

/-- The names at the end begin with "ferret-" only for locks. -/
example : ∃ r, drun emptyDir diskOps = some r ∧ ∀ n, (lookupName r.2.names n).isSome → lockPrefix <+: n → LockName n := by
  refine ⟨_, rfl, ?_⟩
  intro n hn _
  have : n = writeLock := by
    simp only [diskOps, lookupName, Option.isSome_map, List.find?_isSome] at hn
    obtain ⟨x, hx, e⟩ := hn
    have : x.1 = writeLock := by
      clear e
      revert x
      decide +kernel
    rw [this] at e
    simpa using (beq_iff_eq.1 e).symm
  rw [this]
  exact ⟨_, rfl⟩

example : LockName writeLock ∧ (47 : Byte) ∉ writeLock ∧ ([100] : Name).length + 1 + writeLock.length ≤ 1023 := ⟨⟨_, rfl⟩, by decide, by decide⟩

/-! ### Where the stores differ, and where they do not do what they say -/

/-- Touching a file that exists: on disk it is empty then, in memory it is as it was. -/
theorem c90_touch_cuts :
    obsSeen (FsDir.doOps [100] osExample [.openOut cfsName, .write 0 [1, 2], .closeOut 0, .touch cfsName, .length cfsName]) = some [.num 0, .unit, .unit, .unit, .num 0] ∧
    obsSeen (RamDir.doOps RamDir.new [.openOut cfsName, .write 0 [1, 2], .closeOut 0, .touch cfsName, .length cfsName]) = some [.num 0, .unit, .unit, .unit, .num 2] := by
  decide +kernel

/-- Touching a file that cannot be created raises nothing, although it is to raise IO_ERROR: there is no file then. Touching one raises IO_ERROR
when the descriptor is 0: there is a file then. "y.del" cannot be created here. -/
theorem c90_touch_errors :
    obsSeen (FsDir.doOps [100] osExample [.touch [121, 46, 100, 101, 108], .count]) = some [.unit, .num 0] ∧
    obsSeen (FsDir.doOps [100] { osExample with fd0 := true } [.touch cfsName, .exist cfsName]) = some [.error, .bool true] := by decide +kernel

/-- For every operating system: touching a path that is denied raises nothing and leaves everything as it was. -/
theorem c90_touch_denied (os : FsDir.OS) (dir n : Name) (h : os.deny (FsDir.joinPath dir n) = true) : FsDir.doOp dir os (.touch n) = .ok (.unit, os) := by
  simp [FsDir.doOp, FsDir.touch, FsDir.OS.creat, h]

example : osExample.deny (FsDir.joinPath [100] [121, 46, 100, 101, 108]) = true := by decide

/-- The length of a file that does not exist. -/
theorem c90_length_missing :
    obsSeen (FsDir.doOps [100] osExample [.length cfsName]) = some [.error] ∧ obsSeen (RamDir.doOps RamDir.new [.length cfsName]) = some [.num 0] := by decide +kernel

/-- A name that is no index file, "a", is kept by clear and by clear_all on disk, which are to clear all files. -/
theorem c90_clear_keeps :
    obsSeen (FsDir.doOps [100] osExample [.touch [97], .clear, .exist [97], .clearAll, .exist [97]]) = some [.unit, .unit, .bool true, .unit, .bool true] ∧
    obsSeen (RamDir.doOps RamDir.new [.touch [97], .clear, .exist [97], .clearAll, .exist [97]]) = some [.unit, .unit, .bool false, .unit, .bool false] := by
  decide +kernel

/-- A file whose name begins with a byte above 127 is not counted on disk. -/
theorem c90_count_skips :
    obsSeen (FsDir.doOps [100] osExample [.touch [195, 182], .count]) = some [.unit, .num 0] ∧
    obsSeen (RamDir.doOps RamDir.new [.touch [195, 182], .count]) = some [.unit, .num 1] := by decide +kernel

/-- **Long paths.** In a directory whose path has 1022 bytes or more, all names are one file: what is written to one is read from any other. -/
theorem c90_long_paths (dir a b : Name) (h : 1022 ≤ dir.length) : FsDir.joinPath dir a = FsDir.joinPath dir b := by
  have : ∀ n : Name, FsDir.joinPath dir n = (dir ++ [47]).take 1023 := by
    intro n
    unfold FsDir.joinPath FsDir.maxPath
    rw [show dir ++ 47 :: n = (dir ++ [47]) ++ n by simp, List.take_append_of_le_length (by simp; omega)]
  rw [this a, this b]

example : 1022 ≤ (List.replicate 1022 (100 : Byte)).length ∧ cfsName ≠ segsName := ⟨by rw [List.length_replicate]; omega, by decide⟩

/-- A lock that another process has taken, here by touching it, is gone when a store on the directory is closed. -/
theorem c90_lock_lost :
    (match FsDir.doOps [100] osExample [.touch writeLock] with
      | .ok r => (FsDir.exist r.2 [100] writeLock == .bool true) && (FsDir.exist (FsDir.destroy r.2 [100]) [100] writeLock == .bool false)
      | _ => false) = true := by decide +kernel

/-! ### Sharing a store -/

/-- **One store for a path.** Calls that open and close stores, one after the other and each close of a store that is open, give what Spec/FsShare
says: opening a path gives the store that is open for it, or else a new one, and a store is there until it has been closed as many
times as it has been opened. Missing: calls that overlap, for which it is false (see below). -/
theorem c90_shared_partial (es : List FsShare.Ev) (o : List FsShare.Obs) (s : SharedStores) (h : shareRun noStores es = some (o, s)) :
    ∃ st, FsShare.calls FsShare.init es = .ok (o, st) ∧
      ∀ p i c, (p, i, c) ∈ s.opened → 0 < c ∧ ∃ x, st.heap[i]? = some (some x) ∧ x.path = p := by
  obtain ⟨st, h1, hr⟩ := FsShare.calls_spec es FsShare.shrel_init h
  refine ⟨st, h1, ?_⟩
  intro p i c hm
  obtain ⟨a, b, _⟩ := hr.live _ hm
  exact ⟨b, _, a, rfl⟩

example : (shareRun noStores [.openStore 0 [100], .openStore 1 [100], .openStore 0 [101], .closeStore 0 0, .openStore 2 [100], .closeStore 1 0, .closeStore 2 0,
      .openStore 1 [100]]).map (fun r => (r.1, r.2.opened)) =
    some ([.got 0 0, .got 1 0, .got 0 1, .gave 0 0, .got 2 0, .gave 1 0, .gave 2 0, .got 1 2], [([100], 2, 1), ([101], 1, 1)]) := by decide +kernel

/-- A thread closes the last reference while another opens the same path: the other gets a store that is freed then, and using it, here closing it,
is undefined. -/
def closeRace : List FsShare.Ev := [.openStore 1 [100], .closeStore 1 0, .step 1, .step 1, .openStore 2 [100], .step 2, .step 2, .step 1]

theorem c90_close_race : obsSeen (FsShare.run FsShare.init closeRace) = some [.got 1 0, .got 2 0, .gave 1 0] ∧
    (match FsShare.run FsShare.init closeRace with
      | .ok r => r.2.heap[0]?.any Option.isNone && (match FsShare.step r.2 (.closeStore 2 0) with | .ub => true | _ => false)
      | _ => false) = true := by decide +kernel

/-- A thread closes a store that two have while another opens it: the reference count is one too low after it, so that the next close, of
two that are to come, frees the store. -/
def countRace : List FsShare.Ev :=
  [.openStore 1 [100], .openStore 3 [100], .step 3, .step 3, .closeStore 1 0, .step 1, .openStore 2 [100], .step 2, .step 2, .step 1,
   .closeStore 3 0, .step 3, .step 3, .step 3]

theorem c90_count_race : obsSeen (FsShare.run FsShare.init countRace) = some [.got 1 0, .got 3 0, .got 2 0, .gave 1 0, .gave 3 0] ∧
    (match FsShare.run FsShare.init countRace with
      | .ok r => r.2.heap[0]?.any Option.isNone
      | _ => false) = true := by decide +kernel

#print axioms c90_same_partial
#print axioms c90_each
#print axioms c90_close_unlocks
#print axioms c90_touch_cuts
#print axioms c90_touch_errors
#print axioms c90_touch_denied
#print axioms c90_length_missing
#print axioms c90_clear_keeps
#print axioms c90_count_skips
#print axioms c90_long_paths
#print axioms c90_lock_lost
#print axioms c90_shared_partial
#print axioms c90_close_race
#print axioms c90_count_race
end Ferret.Props
