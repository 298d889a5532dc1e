import Verif.Lemmas.RamDir

/-!
C10: the in-memory directory behaves as a map of named files.

The code departs from the English property in one way: opening an output stream on a name that is
taken does not truncate the file (`c10_rewrite_keeps_old_tail`), so a file rewritten with fewer bytes
keeps its old tail. The specification in Spec/Dir says so: a stream overwrites from position 0.
-/

namespace Ferret.Props
open Ferret.RamDir Ferret.Spec

/-- Any sequence of calls that the directory of Spec/Dir allows, on a new in-memory directory,
returns what it returns there. In particular no call touches a file that was freed. Missing: a file
rewritten holds only what was written last (false, see below). -/
theorem c10_directory_partial (ops : List DOp) (obs : List DObs) (s : DState) (h : drun emptyDir ops = some (obs, s)) :
    ∃ d, RamDir.doOps RamDir.new ops = .ok (obs, d) := by
  obtain ⟨d, h1, _⟩ := RamDir.doOps_spec ops drel_new h
  exact ⟨d, h1⟩

/-- A history with collisions of streams and names: a file is replaced by a rename while it is being
read, its old content is read, then the new one. -/
def sampleDirOps : List DOp :=
  [.openOut [97], .write 0 [1, 2, 3], .closeOut 0, .openOut [98], .write 1 [7, 8], .closeOut 1, .openIn [98],
   .rename [97] [98], .exist [97], .read 0 0 2, .openIn [98], .read 1 0 3, .closeIn 0, .length [98], .count,
   .openIn [97], .rename [97] [99], .touch [120, 46, 108, 99, 107], .clear, .count, .read 1 1 2]

example : (drun emptyDir sampleDirOps).map (·.1) = some
    [.num 0, .unit, .unit, .num 1, .unit, .unit, .num 0, .unit, .bool false, .bytes [7, 8], .num 1, .bytes [1, 2, 3],
     .unit, .num 3, .num 1, .error, .error, .unit, .unit, .num 1, .bytes [2, 3]] := by decide +kernel

/-- The names passed to the function given to `each` are the names of the directory that do not start
with "ferret-", each once, in some order. -/
theorem c10_each (ops : List DOp) (obs : List DObs) (s : DState) (h : drun emptyDir ops = some (obs, s)) :
    ∃ d l, RamDir.doOps RamDir.new ops = .ok (obs, d) ∧ RamDir.each d = .ok l ∧ l.Nodup ∧
      ∀ n, n ∈ l ↔ (lookupName s.names n).isSome ∧ ¬ lockPrefix <+: n := by
  obtain ⟨d, h1, h2⟩ := RamDir.doOps_spec ops drel_new h
  obtain ⟨l, h3, h4⟩ := RamDir.each_spec h2
  refine ⟨d, l, h1, h3, ?_, ?_⟩
  · rw [h4.nodup_iff]
    refine List.Nodup.sublist List.filter_sublist ?_
    have := h2.ht.dist
    simp only [List.Nodup, List.pairwise_map]
    refine List.Pairwise.imp ?_ this
    intro a b hab
    simpa [strFns] using hab
  · intro n
    rw [h4.mem_iff, List.mem_filter]
    have e1 : n ∈ s.names.map (·.1) ↔ (lookupName s.names n).isSome := by
      cases hl : lookupName s.names n with
      | none =>
        simp only [Option.isSome_none, Bool.false_eq_true, iff_false]
        intro hm
        obtain ⟨p, hp, e⟩ := List.mem_map.1 hm
        exact lookup_none hl p hp e
      | some i =>
        simp only [Option.isSome_some, iff_true]
        exact List.mem_map.2 ⟨_, lookup_some hl, rfl⟩
    have e2 : (n.take lockPrefix.length = lockPrefix) ↔ lockPrefix <+: n := by
      rw [List.prefix_iff_eq_take]; exact eq_comm
    rw [e1]
    simp [e2]

example : ∃ r, drun emptyDir [.touch [97], .touch (lockPrefix ++ [97]), .remove [98], .touch [98]] = some r ∧
    r.2.names.map (·.1) = [[98], lockPrefix ++ [97], [97]] := ⟨_, rfl, rfl⟩

/-- Whether a call writes into file `i`. -/
def writesTo (s : DState) (i : Nat) : DOp → Bool
  | .write h bs => match s.outs[h]? with
    | some (some (j, _)) => decide (j = i)
    | _ => false
  | _ => false

/-- No call of the run writes into file `i`, and none closes the input stream `h`. -/
def leavesAlone (i h : Nat) (s : DState) : List DOp → Prop
  | [] => True
  | op :: ops => writesTo s i op = false ∧ op ≠ .closeIn h ∧ ∀ r, dstep s op = some r → leavesAlone i h r.2 ops

theorem dstep_keeps {s : DState} {op : DOp} {o s'} (hs : dstep s op = some (o, s')) {i h : Nat} {f : List Byte}
    (hf : s.files[i]? = some f) (hh : s.ins[h]? = some (some i)) (hw : writesTo s i op = false) (hc : op ≠ .closeIn h) :
    s'.files[i]? = some f ∧ s'.ins[h]? = some (some i) := by
  have hi := (List.getElem?_eq_some_iff.1 hf).1
  have hhl := (List.getElem?_eq_some_iff.1 hh).1
  cases op with
  | touch n =>
    simp only [dstep] at hs
    split at hs <;> cases hs
    · exact ⟨hf, hh⟩
    · exact ⟨by simp only [List.getElem?_append_left hi]; exact hf, hh⟩
  | exist n => cases hs; exact ⟨hf, hh⟩
  | remove n => cases hs; exact ⟨hf, hh⟩
  | rename a b =>
    simp only [dstep] at hs
    split at hs <;> cases hs <;> exact ⟨hf, hh⟩
  | count => cases hs; exact ⟨hf, hh⟩
  | length n =>
    simp only [dstep] at hs
    split at hs
    · cases hs; exact ⟨hf, hh⟩
    · rw [Option.map_eq_some_iff] at hs; obtain ⟨_, _, e⟩ := hs; cases e; exact ⟨hf, hh⟩
  | openOut n =>
    simp only [dstep] at hs
    split at hs <;> cases hs
    · exact ⟨hf, hh⟩
    · exact ⟨by simp only [List.getElem?_append_left hi]; exact hf, hh⟩
  | write k bs =>
    simp only [dstep] at hs
    simp only [writesTo] at hw
    split at hs
    · rename_i j p hx
      rw [hx] at hw
      simp only [decide_eq_false_iff_not] at hw
      rw [Option.map_eq_some_iff] at hs; obtain ⟨_, _, e⟩ := hs; cases e
      exact ⟨by simp only [List.getElem?_set, if_neg hw]; exact hf, hh⟩
    · cases hs
  | closeOut k =>
    simp only [dstep] at hs
    split at hs <;> cases hs; exact ⟨hf, hh⟩
  | openIn n =>
    simp only [dstep] at hs
    split at hs <;> cases hs
    · exact ⟨hf, hh⟩
    · exact ⟨hf, by simp only [List.getElem?_append_left hhl]; exact hh⟩
  | read k p l =>
    simp only [dstep] at hs
    split at hs
    · split at hs
      · split at hs <;> cases hs; exact ⟨hf, hh⟩
      · cases hs
    · cases hs
  | closeIn k =>
    simp only [dstep] at hs
    have hk : k ≠ h := fun e => hc (by rw [e])
    split at hs <;> cases hs
    exact ⟨hf, by simp only [List.getElem?_set, if_neg hk]; exact hh⟩
  | clear => cases hs; exact ⟨hf, hh⟩
  | clearLocks => cases hs; exact ⟨hf, hh⟩
  | clearAll => cases hs; exact ⟨hf, hh⟩

theorem drun_keeps (ops : List DOp) : ∀ {s o s'}, drun s ops = some (o, s') → ∀ {i h : Nat} {f : List Byte},
    s.files[i]? = some f → s.ins[h]? = some (some i) → leavesAlone i h s ops → s'.files[i]? = some f ∧ s'.ins[h]? = some (some i) := by
  induction ops with
  | nil => intro s o s' hs i h f h1 h2 _; cases hs; exact ⟨h1, h2⟩
  | cons op ops ih =>
    intro s o s' hs i h f h1 h2 h3
    simp only [drun, Option.bind_eq_some_iff, Option.map_eq_some_iff] at hs
    obtain ⟨⟨o1, s1⟩, g1, ⟨o2, s2⟩, g2, g3⟩ := hs
    cases g3
    obtain ⟨k1, k2⟩ := dstep_keeps g1 h1 h2 h3.1 h3.2.1
    exact ih g2 k1 k2 (h3.2.2 _ g1)

theorem drun_append (a b : List DOp) : ∀ {s o s'}, drun s (a ++ b) = some (o, s') →
    ∃ o1 s1 o2, drun s a = some (o1, s1) ∧ drun s1 b = some (o2, s') ∧ o = o1 ++ o2 := by
  induction a with
  | nil => intro s o s' h; exact ⟨[], s, o, rfl, h, rfl⟩
  | cons op a ih =>
    intro s o s' h
    rw [List.cons_append] at h
    simp only [drun, Option.bind_eq_some_iff, Option.map_eq_some_iff] at h
    obtain ⟨⟨o1, s1⟩, g1, ⟨o2, s2⟩, g2, g3⟩ := h
    cases g3
    obtain ⟨o3, s3, o4, k1, k2, rfl⟩ := ih g2
    exact ⟨o1 :: o3, s3, o4, by simp only [drun, g1, Option.bind_some, k1, Option.map_some], k2, rfl⟩

theorem drun_join (a b : List DOp) : ∀ {s o1 s1 o2 s2}, drun s a = some (o1, s1) → drun s1 b = some (o2, s2) →
    drun s (a ++ b) = some (o1 ++ o2, s2) := by
  induction a with
  | nil => intro s o1 s1 o2 s2 h1 h2; cases h1; exact h2
  | cons op a ih =>
    intro s o1 s1 o2 s2 h1 h2
    rw [List.cons_append]
    simp only [drun, Option.bind_eq_some_iff, Option.map_eq_some_iff] at h1
    obtain ⟨⟨o3, s3⟩, g1, ⟨o4, s4⟩, g2, g3⟩ := h1
    cases g3
    simp only [drun, g1, Option.bind_some, ih g2 h2, Option.map_some, List.cons_append]

/-- A stream opened for reading keeps giving the content its file had, whatever the calls in between
do to the names, other files and other streams, as long as nothing is written into that very file:
the file may be removed, renamed, replaced, or cleared away. -/
theorem c10_open_reader_unaffected (before between : List DOp) (o1 o2 : List DObs) (s1 s2 : DState) (h i : Nat) (f : List Byte)
    (pos len : Nat) (hb : drun emptyDir before = some (o1, s1)) (hi : s1.ins[h]? = some (some i)) (hf : s1.files[i]? = some f)
    (hbt : drun s1 between = some (o2, s2)) (hq : leavesAlone i h s1 between) (hl : pos + len ≤ f.length) :
    ∃ d, RamDir.doOps RamDir.new (before ++ (between ++ [.read h pos len])) = .ok (o1 ++ (o2 ++ [.bytes (slice f pos len)]), d) := by
  obtain ⟨k1, k2⟩ := drun_keeps between hbt hf hi hq
  have hr : drun s2 [.read h pos len] = some ([.bytes (slice f pos len)], s2) := by
    simp only [drun, dstep, k1, k2, if_pos hl]; rfl
  have hall := drun_join _ _ hb (drun_join _ _ hbt hr)
  obtain ⟨d, h1, _⟩ := RamDir.doOps_spec _ drel_new hall
  exact ⟨d, h1⟩

example : ∃ r, drun emptyDir [.openOut [97], .write 0 [5, 6], .closeOut 0, .openIn [97]] = some r ∧ r.2.ins[0]? = some (some 0) ∧
    r.2.files[0]? = some [5, 6] ∧ (drun r.2 [.remove [97], .openOut [97], .write 1 [9], .clearAll]).isSome ∧
    leavesAlone 0 0 r.2 [.remove [97], .openOut [97], .write 1 [9], .clearAll] := by
  refine ⟨_, rfl, rfl, rfl, rfl, ?_⟩
  refine ⟨rfl, by simp, fun r h => ?_⟩; cases h
  refine ⟨rfl, by simp, fun r h => ?_⟩; cases h
  refine ⟨rfl, by simp, fun r h => ?_⟩; cases h
  exact ⟨rfl, by simp, fun r h => trivial⟩

/-- A file created under a name that was not taken, written in any pieces: what is read back under
that name is their concatenation, and that is its length. -/
theorem c10_new_file_content (before : List DOp) (o : List DObs) (s : DState) (n : Name) (pieces : List (List Byte))
    (hb : drun emptyDir before = some (o, s)) (hn : lookupName s.names n = none) :
    ∃ d, RamDir.doOps RamDir.new (before ++ (.openOut n :: (pieces.map (.write s.outs.length) ++
        [.closeOut s.outs.length, .length n, .openIn n, .read s.ins.length 0 pieces.flatten.length]))) =
      .ok (o ++ (.num s.outs.length :: (pieces.map (fun _ => .unit) ++
        [.unit, .num pieces.flatten.length, .num s.ins.length, .bytes pieces.flatten])), d) := by
  have hw : ∀ (ps : List (List Byte)) (s1 : DState) (pre : List Byte), s1.files[s.files.length]? = some pre →
      s1.outs[s.outs.length]? = some (some (s.files.length, pre.length)) →
      ∃ s2, drun s1 (ps.map (.write s.outs.length)) = some (ps.map (fun _ => .unit), s2) ∧ s2.names = s1.names ∧ s2.ins = s1.ins ∧
        s2.files[s.files.length]? = some (pre ++ ps.flatten) ∧ (∃ x, s2.outs[s.outs.length]? = some (some x)) := by
    intro ps
    induction ps with
    | nil => intro s1 pre h1 h2; exact ⟨s1, rfl, rfl, rfl, by simpa using h1, _, h2⟩
    | cons p ps ih =>
      intro s1 pre h1 h2
      have l1 := (List.getElem?_eq_some_iff.1 h1).1
      have l2 := (List.getElem?_eq_some_iff.1 h2).1
      have hwa : writeAt pre pre.length p = pre ++ p := by simp [writeAt]
      obtain ⟨s2, g1, g2, g3, g4, g5⟩ := ih ⟨s1.files.set s.files.length (pre ++ p), s1.names, s1.outs.set s.outs.length (some (s.files.length, pre.length + p.length)), s1.ins⟩
        (pre ++ p) (List.getElem?_set_self l1) (by simp only [List.getElem?_set_self l2, List.length_append])
      refine ⟨s2, ?_, g2, g3, by simpa using g4, g5⟩
      simp only [List.map_cons, drun, dstep, h2, h1, Option.map_some, hwa, Option.bind_some, g1]
  obtain ⟨s2, g1, g2, g3, g4, ⟨x, g5⟩⟩ := hw pieces { s with files := s.files ++ [[]], names := (n, s.files.length) :: s.names, outs := s.outs ++ [some (s.files.length, 0)] }
    [] (by simp) (by simp)
  have hl2 : lookupName s2.names n = some s.files.length := by rw [g2]; simp [lookupName]
  rw [List.nil_append] at g4
  have hfin : drun s2 [.closeOut s.outs.length, .length n, .openIn n, .read s.ins.length 0 pieces.flatten.length] =
      some ([.unit, .num pieces.flatten.length, .num s.ins.length, .bytes pieces.flatten],
        { s2 with outs := s2.outs.set s.outs.length none, ins := s2.ins ++ [some s.files.length] }) := by
    have hs : slice pieces.flatten 0 pieces.flatten.length = pieces.flatten := by
      simp only [slice, List.drop_zero, List.take_length]
    have g3' : s2.ins = s.ins := g3
    simp only [drun, dstep, g5, Option.bind_some, hl2, g4, Option.map_some, g3', List.getElem?_concat_length,
      Nat.zero_add, Nat.le_refl, if_true, hs]
  have hmid := drun_join _ _ g1 hfin
  have hall := drun_join before (.openOut n :: _) hb (show drun s (.openOut n :: _) = some (.num s.outs.length :: _, _) by
    simp only [drun, dstep, hn, Option.bind_some]
    rw [hmid]; rfl)
  obtain ⟨d, h1, _⟩ := RamDir.doOps_spec _ drel_new hall
  exact ⟨d, h1⟩

example : ∃ r, drun emptyDir [.openOut [97], .write 0 [5, 6], .rename [97] [98]] = some r ∧ lookupName r.2.names [97] = none :=
  ⟨_, rfl, rfl⟩

/-- After a rename the destination has the content of the source, whatever it had before, and the
source is gone. -/
theorem c10_rename (before : List DOp) (o : List DObs) (s : DState) (a b : Name) (i : Nat) (f : List Byte)
    (hb : drun emptyDir before = some (o, s)) (ha : lookupName s.names a = some i) (hf : s.files[i]? = some f) :
    ∃ d, RamDir.doOps RamDir.new (before ++ [.rename a b, .exist a, .length b, .openIn b, .read s.ins.length 0 f.length]) =
      .ok (o ++ [.unit, .bool (decide (a = b)), .num f.length, .num s.ins.length, .bytes f], d) := by
  have hsl : slice f 0 f.length = f := by simp [slice]
  have hlb : lookupName ((b, i) :: unbind (unbind s.names a) b) b = some i := by simp [lookupName]
  have hla : (lookupName ((b, i) :: unbind (unbind s.names a) b) a).isSome = decide (a = b) := by
    by_cases hab : a = b
    · subst hab; simp [lookupName]
    · have : (b == a) = false := by simpa using fun e => hab e.symm
      simp only [lookupName, List.find?_cons, this, hab, decide_false, Option.isSome_map]
      rw [Option.isSome_eq_false_iff, Option.isNone_iff_eq_none, List.find?_eq_none]
      intro p hp
      have := (List.mem_filter.1 (List.mem_filter.1 hp).1).2
      simpa using this
  have hall := drun_join _ [.rename a b, .exist a, .length b, .openIn b, .read s.ins.length 0 f.length] hb
    (o2 := [.unit, .bool (decide (a = b)), .num f.length, .num s.ins.length, .bytes f])
    (s2 := { s with names := (b, i) :: unbind (unbind s.names a) b, ins := s.ins ++ [some i] }) (by
      simp only [drun, dstep, ha, Option.bind_some, hla, hlb, hf, Option.map_some, List.getElem?_concat_length,
        Nat.zero_add, Nat.le_refl, if_true, hsl])
  obtain ⟨d, h1, _⟩ := RamDir.doOps_spec _ drel_new hall
  exact ⟨d, h1⟩

example : ∃ r, drun emptyDir [.touch [98], .openOut [97], .write 0 [5, 6]] = some r ∧ lookupName r.2.names [97] = some 1 ∧
    r.2.files[1]? = some [5, 6] := ⟨_, rfl, rfl, rfl⟩

/-- The disagreement: a file written again with fewer bytes keeps the tail of its old content. -/
theorem c10_rewrite_keeps_old_tail :
    ∃ d, RamDir.doOps RamDir.new [.openOut [97], .write 0 [1, 2, 3], .closeOut 0, .openOut [97], .write 1 [9], .closeOut 1,
      .openIn [97], .read 0 0 3] = .ok ([.num 0, .unit, .unit, .num 1, .unit, .unit, .num 0, .bytes [9, 2, 3]], d) := by
  obtain ⟨d, h1, _⟩ := RamDir.doOps_spec [.openOut [97], .write 0 [1, 2, 3], .closeOut 0, .openOut [97], .write 1 [9], .closeOut 1,
      .openIn [97], .read 0 0 3] drel_new rfl
  exact ⟨d, h1⟩

#print axioms c10_directory_partial
#print axioms c10_each
#print axioms c10_open_reader_unaffected
#print axioms c10_new_file_content
#print axioms c10_rename
#print axioms c10_rewrite_keeps_old_tail
end Ferret.Props
