import Verif.Props.C16

/-! C17: commit and crashes. -/

namespace Ferret.Props
open Ferret Ferret.Spec Ferret.Fis Ferret.Names Ferret.Sis

/-- The directory holds the commit `s`: its segments file is there and whole (anything may follow
in the file), no segments file has a higher generation. -/
structure Holds (d : Disk) (s : SIS) : Prop where
  gen : 0 ≤ s.generation ∧ s.generation < 2 ^ 63 - 1
  fits : SisFits s
  file : ∃ n junk, segfn (toU 8 s.generation) = .ok n ∧ d.get n = some (sisBytes s ++ junk)
  newest : segmentsUpTo d s.generation

/-- Events on files that are not segments files and not among `refs`. -/
def leaves (refs : List Name) (evs : List DiskEv) : Prop := ∀ ev ∈ evs, isSeg ev.name = false ∧ ev.name ∉ refs

theorem Holds.read {d : Disk} {s : SIS} (h : Holds d s) : sisRead d = .ok s := by
  obtain ⟨n, junk, h1, h2⟩ := h.file
  obtain ⟨M, hM⟩ : ∃ M : Nat, s.generation = M := ⟨s.generation.toNat, by have := h.gen; omega⟩
  have hM2 : M < 2 ^ 63 := by have := h.gen; omega
  rw [hM, toU8 M hM2] at h1
  refine findSegments_first _ _ M _ ?_ (sisReadI_ok hM2 h1 h2 hM h.fits)
  apply currentGeneration_max _ M hM2
  · intro m hm hs
    obtain ⟨g, hg, e⟩ := h.newest m hm hs
    exact ⟨g, by omega, e⟩
  · exact ⟨n, by rw [← Disk.get_isSome, h2]; rfl, h1⟩

/-- Events on other files do not disturb the commit. -/
theorem Holds.other {d : Disk} {s : SIS} (h : Holds d s) {evs : List DiskEv} (he : ∀ ev ∈ evs, isSeg ev.name = false) : Holds (d.applyAll evs) s := by
  obtain ⟨n, junk, h1, h2⟩ := h.file
  have hseg : isSeg n = true := by
    obtain ⟨m, -, e, -, -, e'⟩ := segfn_ok (toU 8 s.generation) (toU_lt 8 _)
    rw [h1] at e; cases e; exact e'
  refine ⟨h.gen, h.fits, ⟨n, junk, h1, ?_⟩, ?_⟩
  · rw [Disk.get_applyAll_ne _ _ _ (fun ev hev e => by have := he ev hev; rw [e, hseg] at this; cases this), h2]
  · intro m hm hs
    rcases Disk.names_applyAll _ _ _ hm with hm | ⟨ev, hev, e⟩
    · exact h.newest m hm hs
    · have := he ev hev
      rw [e, hs] at this
      cases this

theorem take_cases {α : Type} (a b : List α) (k : Nat) : (k ≤ a.length ∧ (a ++ b).take k = a.take k) ∨ ∃ j, k = a.length + j ∧ (a ++ b).take k = a ++ b.take j := by
  by_cases h : k ≤ a.length
  · exact Or.inl ⟨h, List.take_append_of_le_length h⟩
  · refine Or.inr ⟨k - a.length, by omega, ?_⟩
    rw [List.take_append, List.take_of_length_le (by omega)]

/-- **C17, partial.** The directory holds the commit `old` of generation 1 or more. A writer writes
new files (`pre`), commits `new` and removes files no longer needed (`post`); the files `old` refers
to are not touched by `pre`, those `new` refers to not by `post`. If the process stops after any
number `k` of events — a name created or removed, a byte written — then opening the index gives
`old`, with the files it refers to as they were, or `new`, with its files as `pre` left them.

Missing: generation 0 (`c17_second_commit_lost`), a segments file left over by an earlier crash
(`c17_mixed_after_two_crashes`) and a stop while the first three bytes of the field infos are
written (`c17_stop_crashes_reader`), each a witness that the property fails there. Losses and
reorderings by the operating system are not modelled; the code never calls fsync. -/
theorem c17_commit_atomic_partial (d : Disk) (old new : SIS) (pre post evs : List DiskEv) (del : Bool) (refsOld refsNew : List Name) (k : Nat)
    (hold : Holds d old) (hgen : 1 ≤ old.generation) (hnext : old.generation < 2 ^ 63 - 2) (hnew : SisFits new) (hng : new.generation = old.generation)
    (hpre : leaves refsOld pre) (hpost : leaves refsNew post)
    (hro : ∀ n ∈ refsOld, isSeg n = false ∧ n ≠ segmentsFile) (hrn : ∀ n ∈ refsNew, isSeg n = false ∧ n ≠ segmentsFile)
    (hw : sisWrite new del = .ok evs)
    (hcut : ∀ n c, segfn (toU 8 (new.generation + 1)) = .ok n → (d.applyAll ((pre ++ (evs ++ post)).take k)).get n = some c →
      ¬ (fisOffset (committed new) ≤ c.length ∧ c.length < fisOffset (committed new) + headLen new.fis)) :
    (sisRead (d.applyAll ((pre ++ (evs ++ post)).take k)) = .ok old ∧
      ∀ n ∈ refsOld, (d.applyAll ((pre ++ (evs ++ post)).take k)).get n = d.get n) ∨
    (sisRead (d.applyAll ((pre ++ (evs ++ post)).take k)) = .ok (committed new) ∧
      ∀ n ∈ refsNew, (d.applyAll ((pre ++ (evs ++ post)).take k)).get n = (d.applyAll pre).get n) := by
  obtain ⟨N, hN⟩ : ∃ N : Nat, old.generation = N := ⟨old.generation.toNat, by omega⟩
  have hN2 : N + 1 < 2 ^ 63 := by omega
  have hM : new.generation + 1 = ((N + 1 : Nat) : Int) := by omega
  obtain ⟨n, tail, w1, w2, w3, w4⟩ := sisWrite_spec new del (N + 1) hM hN2
  rw [hw] at w2
  cases w2
  obtain ⟨on, junk, o1, o2⟩ := hold.file
  rw [hN, toU8 N (by omega)] at o1
  have hseg : isSeg n = true := by
    obtain ⟨m, -, e, -, -, e'⟩ := segfn_ok (N + 1) (by omega)
    rw [w1] at e; cases e; exact e'
  have hoseg : isSeg on = true := by
    obtain ⟨m, -, e, -, -, e'⟩ := segfn_ok N (by omega)
    rw [o1] at e; cases e; exact e'
  have hne : n ≠ on := by
    intro e
    subst e
    have := segfn_inj (by omega) (by omega) w1 o1
    omega
  have hcf : SisFits (committed new) := ⟨Nat.mod_lt _ (by decide), hnew.counter, hnew.format, hnew.size, hnew.seg, hnew.fisWF, hnew.fis⟩
  rcases take_cases pre (writeFile n (sisBytes (committed new)) ++ tail ++ post) k with ⟨-, e⟩ | ⟨j, -, e⟩
  · -- still writing the new files
    left
    rw [e]
    have hsub : ∀ ev ∈ pre.take k, isSeg ev.name = false ∧ ev.name ∉ refsOld := fun ev hev => hpre ev (List.mem_of_mem_take hev)
    refine ⟨(hold.other (fun ev hev => (hsub ev hev).1)).read, ?_⟩
    intro m hm
    exact Disk.get_applyAll_ne _ _ _ (fun ev hev e => (hsub ev hev).2 (e ▸ hm))
  · rw [e] at hcut ⊢
    rw [Disk.applyAll_append] at hcut ⊢
    have hold1 : Holds (d.applyAll pre) old := hold.other (fun ev hev => (hpre ev hev).1)
    have hfiles : ∀ m ∈ refsOld, (d.applyAll pre).get m = d.get m :=
      fun m hm => Disk.get_applyAll_ne _ _ _ (fun ev hev e => (hpre ev hev).2 (e ▸ hm))
    generalize hd1 : d.applyAll pre = d1 at *
    rw [List.append_assoc] at hcut ⊢
    have habs : d1.get n = none := by
      apply Classical.byContradiction
      intro hne'
      have hs : (d1.get n).isSome = true := Option.isSome_iff_ne_none.mpr hne'
      rw [Disk.get_isSome] at hs
      obtain ⟨g, hg, e⟩ := hold1.newest n hs hseg
      have := segfn_inj (by omega) (by omega) w1 e
      omega
    rcases take_cases (writeFile n (sisBytes (committed new))) (tail ++ post) j with ⟨hj, e⟩ | ⟨j', -, e⟩
    · -- writing the segments file
      rw [e] at hcut ⊢
      cases j with
      | zero =>
        left
        exact ⟨hold1.read, hfiles⟩
      | succ j =>
        simp only [writeFile, List.take_succ_cons, List.length_cons, writeFrom_length] at hcut hj ⊢
        rw [writeFrom_take] at hcut ⊢
        have hev : ∀ ev ∈ DiskEv.create n :: writeFrom n 0 ((sisBytes (committed new)).take j), ev.name = n := by
          intro ev hev
          exact writeFile_name n ((sisBytes (committed new)).take j) ev hev
        have hget : (d1.applyAll (DiskEv.create n :: writeFrom n 0 ((sisBytes (committed new)).take j))).get n = some ((sisBytes (committed new)).take j) := by
          have := Disk.get_writeFile d1 n ((sisBytes (committed new)).take j)
          rw [habs] at this
          simpa [writeFile] using this
        have hother : ∀ m, m ≠ n → (d1.applyAll (DiskEv.create n :: writeFrom n 0 ((sisBytes (committed new)).take j))).get m = d1.get m :=
          fun m hm => Disk.get_applyAll_ne _ _ _ (fun ev h e => hm (by rw [← e, hev ev h]))
        have hcur : currentGeneration (-1) (d1.applyAll (DiskEv.create n :: writeFrom n 0 ((sisBytes (committed new)).take j))).names = .ok ((N + 1 : Nat) : Int) := by
          apply currentGeneration_max _ (N + 1) hN2
          · intro m hm hs
            rcases Disk.names_applyAll _ _ _ hm with hm | ⟨ev, h, e⟩
            · obtain ⟨g, hg, e⟩ := hold1.newest m hm hs
              exact ⟨g, by omega, e⟩
            · rw [hev ev h] at e
              subst e
              exact ⟨N + 1, Nat.le_refl _, w1⟩
          · exact ⟨n, by rw [← Disk.get_isSome, hget]; rfl, w1⟩
        by_cases hwhole : j = (sisBytes (committed new)).length
        · right
          subst hwhole
          rw [List.take_length] at *
          refine ⟨findSegments_first _ _ (N + 1) _ hcur (sisReadI_ok (junk := []) hN2 w1 (by rw [List.append_nil]; exact hget) hM hcf), ?_⟩
          intro m hm
          exact hother m (fun e => by have := (hrn m hm).1; rw [e, hseg] at this; cases this)
        · left
          refine ⟨?_, fun m hm => ?_⟩
          · have hc := hcut n _ (by rw [hM, toU8 _ hN2]; exact w1) hget
            rw [List.length_take, Nat.min_eq_left (by omega)] at hc
            have hpar := (sisParse_spec (committed new) hcf).2.1 j (by omega) hc
            have hcg : (committed new).generation = ((N + 1 : Nat) : Int) := hM
            rw [hcg] at hpar
            refine findSegments_previous _ _ N old .eof on hcur (by omega) ?_ rfl o1 (by omega) ?_ ?_
            · simp only [sisReadI, toU8 _ hN2, w1, Res.ok_bind, openInput, hget, hpar, Res.raise_bind]
            · rw [hother on (fun e => hne e.symm)]
              obtain ⟨on', junk', p1, p2⟩ := hold1.file
              rw [hN, toU8 N (by omega), o1] at p1
              cases p1
              rw [p2]; rfl
            · obtain ⟨on', junk', p1, p2⟩ := hold1.file
              rw [hN, toU8 N (by omega), o1] at p1
              cases p1
              exact sisReadI_ok (by omega) o1 (by rw [hother on (fun e => hne e.symm)]; exact p2) hN hold1.fits
          · rw [hother m (fun e => by have := (hro m hm).1; rw [e, hseg] at this; cases this)]
            exact hfiles m hm
    · -- the segments file is complete
      right
      rw [e]
      have hrest : ∀ ev ∈ (tail ++ post).take j', ev.name ≠ n ∧ (isSeg ev.name = true → ∃ g : Nat, g + 1 = N + 1 ∧ segfn g = .ok ev.name) ∧ ev.name ∉ refsNew := by
        intro ev hev
        have hev := List.mem_of_mem_take hev
        rw [List.mem_append] at hev
        rcases hev with hev | hev
        · refine ⟨w3 ev hev, fun hs => ?_, fun hm => ?_⟩
          · rcases w4 ev hev with h | h
            · rw [h, isSeg_segmentsFile] at hs; cases hs
            · exact h
          · rcases w4 ev hev with h | ⟨g, hg, h⟩
            · exact (hrn _ hm).2 h
            · obtain ⟨m, -, e, -, -, e'⟩ := segfn_ok g (by omega)
              rw [h] at e
              have := Res.ok.inj e
              rw [← this] at e'
              rw [(hrn _ hm).1] at e'
              cases e'
        · have hp := hpost ev hev
          refine ⟨fun e => ?_, fun hs => ?_, hp.2⟩
          · rw [e, hseg] at hp; cases hp.1
          · rw [hs] at hp; cases hp.1
      have hget : (d1.applyAll (writeFile n (sisBytes (committed new)) ++ (tail ++ post).take j')).get n = some (sisBytes (committed new) ++ []) := by
        rw [Disk.applyAll_append, Disk.get_applyAll_ne _ _ _ (fun ev h => (hrest ev h).1), Disk.get_writeFile, habs]
        simp
      have hcur : currentGeneration (-1) (d1.applyAll (writeFile n (sisBytes (committed new)) ++ (tail ++ post).take j')).names = .ok ((N + 1 : Nat) : Int) := by
        apply currentGeneration_max _ (N + 1) hN2
        · intro m hm hs
          rcases Disk.names_applyAll _ _ _ hm with hm | ⟨ev, h, e⟩
          · obtain ⟨g, hg, e⟩ := hold1.newest m hm hs
            exact ⟨g, by omega, e⟩
          · rw [List.mem_append] at h
            rcases h with h | h
            · rw [writeFile_name _ _ _ h] at e
              subst e
              exact ⟨N + 1, Nat.le_refl _, w1⟩
            · subst e
              obtain ⟨g, hg, e⟩ := (hrest ev h).2.1 hs
              exact ⟨g, by omega, e⟩
        · exact ⟨n, by rw [← Disk.get_isSome, hget]; rfl, w1⟩
      refine ⟨findSegments_first _ _ (N + 1) _ hcur (sisReadI_ok hN2 w1 hget hM hcf), ?_⟩
      intro m hm
      rw [Disk.applyAll_append, Disk.get_applyAll_ne _ _ _ (fun ev h e => (hrest ev h).2.2 (e ▸ hm)),
        Disk.get_applyAll_ne _ _ _ (fun ev h e => by
          rw [writeFile_name _ _ _ h] at e
          have := (hrn m hm).1
          rw [← e, hseg] at this
          cases this)]

/-! ### Witnesses -/

/-- "segments_N" for a small N. -/
def segName (c : Byte) : Name := segmentsFile ++ [95, c]

def tinyFis : FIS := ⟨0, 1, 0, []⟩

/-- The commit a directory holds in the examples: one segment "_0" of 5 documents. -/
def oldSis (gen : Int) : SIS := ⟨7, 1, gen, 0, [⟨[95, 48], 5, -1, [], true⟩], tinyFis⟩

/-- The same with a segment "_1" of one document added, which has a deletion file and one norm file. -/
def addedSis (gen : Int) : SIS := ⟨7, 2, gen, 0, [⟨[95, 48], 5, -1, [], true⟩, ⟨[95, 49], 1, 0, [0], false⟩], tinyFis⟩

/-- The same with a deletion in "_0". -/
def deletedSis (gen : Int) : SIS := ⟨7, 1, gen, 0, [⟨[95, 48], 5, 0, [], true⟩], tinyFis⟩

/-- A directory with one data file and the commit of generation 2. -/
def disk2 : Disk := [([95, 48, 46, 99, 102, 115], [9]), (segName 50, sisBytes (oldSis 2))]

/-- A directory with the commit of generation 0. -/
def disk0 : Disk := [(segName 48, sisBytes (oldSis 0))]

def commitEvs (s : SIS) : List DiskEv := match sisWrite s true with | .ok e => e | _ => []

/-- Hypotheses of the theorem are met: two files of data, a commit of generation 2, a stop in the
middle of the segments file. -/
example : sisWrite (addedSis 2) true = .ok (commitEvs (addedSis 2)) ∧
    sisRead disk2 = .ok (oldSis 2) ∧
    sisRead (disk2.applyAll
      ((([.create [95, 49, 46, 116], .put [95, 49, 46, 116] 0 1] : List DiskEv) ++ (commitEvs (addedSis 2) ++ [])).take 30)) = .ok (oldSis 2) ∧
    sisRead (disk2.applyAll
      ((([.create [95, 49, 46, 116], .put [95, 49, 46, 116] 0 1] : List DiskEv) ++ (commitEvs (addedSis 2) ++ [])).take 100)) = .ok (committed (addedSis 2)) := by
  decide +kernel

theorem oldSis_holds : Holds disk2 (oldSis 2) := by
  refine ⟨by decide, ⟨by decide, by decide, rfl, by decide, ?_, ⟨by decide, by decide, by decide⟩, ⟨by decide, by decide, by decide, by decide, by decide⟩⟩, ?_, ?_⟩
  · intro si hsi
    simp only [oldSis, List.mem_cons, List.not_mem_nil, or_false] at hsi
    subst hsi
    exact ⟨by decide, by decide, by decide, by decide, by decide⟩
  · exact ⟨segName 50, [], by decide +kernel, by decide +kernel⟩
  · intro n hn hs
    simp only [disk2, Disk.names, List.map_cons, List.map_nil, List.mem_cons, List.not_mem_nil, or_false] at hn
    rcases hn with rfl | rfl
    · exact absurd hs (by decide)
    · exact ⟨2, by decide, by decide +kernel⟩

/-- The property fails for the second commit of an index. The directory holds the commit of
generation 0 that creating the index makes. If the process stops while writing the next segments
file, opening the index is an error: segments_0 is there and whole, but is not tried. -/
theorem c17_second_commit_lost :
    sisRead disk0 = .ok (oldSis 0) ∧
    (disk0.applyAll ((commitEvs (addedSis 0)).take 20)).get (segName 48) = some (sisBytes (oldSis 0)) ∧
    sisRead (disk0.applyAll ((commitEvs (addedSis 0)).take 20)) = .raise .io := by
  decide +kernel

/-- The property fails after two crashes. A commit stops one byte before the end of segments_3; the
index opens as before. Another commit then writes over that file and stops after 21 bytes; what is
opened now is neither the state before nor the state after, but a mixture. -/
theorem c17_mixed_after_two_crashes :
    ∃ d1 d2 mixed, d1 = disk2.applyAll ((commitEvs (addedSis 2)).take ((sisBytes (addedSis 2)).length)) ∧
      sisRead d1 = .ok (oldSis 2) ∧
      d2 = Disk.applyAll d1 ((commitEvs (deletedSis 2)).take 22) ∧
      sisRead d2 = .ok mixed ∧ mixed ≠ oldSis 2 ∧ mixed ≠ committed (deletedSis 2) ∧ mixed.fis ≠ tinyFis := by
  refine ⟨_, _, ⟨8, 1, 3, 0, [⟨[95, 48], 5, -1, [], true⟩], ⟨2, 95, 49, [⟨[], 0x01000000, 1, 0⟩]⟩⟩, rfl, ?_, rfl, ?_, ?_, ?_, ?_⟩ <;> decide +kernel

/-- A stop just before the field infos are written leaves a file on which opening the index
dereferences NULL. -/
theorem c17_stop_crashes_reader :
    ∃ k, (sisRead (disk2.applyAll ((commitEvs (addedSis 2)).take k))).isUB = true :=
  ⟨1 + fisOffset (addedSis 2), by decide +kernel⟩

#print axioms c17_commit_atomic_partial
#print axioms c17_second_commit_lost
#print axioms c17_mixed_after_two_crashes
#print axioms c17_stop_crashes_reader
end Ferret.Props
