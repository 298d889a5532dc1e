import Verif.Lemmas.Disk

/-! C16: segment infos survive a write/read cycle. -/

namespace Ferret.Props
open Ferret Ferret.Spec Ferret.Fis Ferret.Names Ferret.Sis

/-- Every segments file in the directory is of generation `m` or lower. -/
def segmentsUpTo (d : Disk) (m : Int) : Prop := ∀ n ∈ d.names, isSeg n = true → ∃ g : Nat, (g : Int) ≤ m ∧ segfn g = .ok n

theorem sisReadI_ok {d : Disk} {M : Nat} {n : Name} {s : SIS} {junk : List Byte} (hM : M < 2 ^ 63) (hn : segfn M = .ok n)
    (hg : d.get n = some (sisBytes s ++ junk)) (hs : s.generation = M) (hf : SisFits s) : sisReadI d M = .ok s := by
  have h4 : toU 8 (M : Int) = M := by
    unfold toU
    rw [Int.emod_eq_of_lt (by omega) (by omega)]
    omega
  have hp := (sisParse_spec s hf).1 junk
  rw [hs] at hp
  simp only [sisReadI, h4, hn, Res.ok_bind, openInput, hg, hp]

theorem isSeg_segmentsFile : isSeg segmentsFile = false := by decide

theorem segfn_ne_segmentsFile {g : Nat} {n : Name} (h : g < 2 ^ 64) (e : segfn g = .ok n) : n ≠ segmentsFile := by
  obtain ⟨m, p, h1, -, -, h4⟩ := segfn_ok g h
  rw [h1] at e
  cases e
  intro e
  rw [e, isSeg_segmentsFile] at h4
  cases h4

theorem toU8 (M : Nat) (hM : M < 2 ^ 63) : toU 8 (M : Int) = M := by
  unfold toU
  rw [Int.emod_eq_of_lt (by omega) (by omega)]
  omega

/-- What a commit does to the directory. -/
theorem sisWrite_spec (s : SIS) (del : Bool) (M : Nat) (hM : s.generation + 1 = M) (hM2 : M < 2 ^ 63) :
    ∃ n tail, segfn M = .ok n ∧ sisWrite s del = .ok (writeFile n (sisBytes (committed s)) ++ tail) ∧
      (∀ ev ∈ tail, ev.name ≠ n) ∧ (∀ ev ∈ tail, ev.name = segmentsFile ∨ (∃ g : Nat, g + 1 = M ∧ segfn g = .ok ev.name)) := by
  obtain ⟨n, -, h1, -, -, -⟩ := segfn_ok M (by omega)
  have hg : (committed s).generation = M := hM
  obtain ⟨prev, -, h2, -, -, -⟩ := segfn_ok (toU 8 ((M : Int) - 1)) (toU_lt 8 _)
  refine ⟨n, writeFile segmentsFile (beBytes 8 (toU 8 (committed s).generation) ++ beBytes 8 (toU 8 (committed s).generation)) ++
    (if del = true ∧ (committed s).generation > 0 then [.del prev] else []), h1, ?_, ?_, ?_⟩
  · simp only [sisWrite, hg, toU8 M hM2, h1, h2, Res.ok_bind]
  · intro ev hev
    rw [List.mem_append] at hev
    rcases hev with hev | hev
    · rw [writeFile_name _ _ _ hev]
      exact fun e => segfn_ne_segmentsFile (by omega) h1 e.symm
    · split at hev
      · rename_i hc
        rw [hg] at hc
        simp at hev
        subst hev
        obtain ⟨k, rfl⟩ : ∃ k, M = k + 1 := ⟨M - 1, by omega⟩
        rw [show ((k + 1 : Nat) : Int) - 1 = (k : Int) by omega, toU8 k (by omega)] at h2
        intro e
        simp only [DiskEv.name] at e
        subst e
        have := segfn_inj (by omega) (by omega) h1 h2
        omega
      · simp at hev
  · intro ev hev
    rw [List.mem_append] at hev
    rcases hev with hev | hev
    · left; exact writeFile_name _ _ _ hev
    · split at hev
      · rename_i hc
        rw [hg] at hc
        simp at hev
        subst hev
        obtain ⟨k, rfl⟩ : ∃ k, M = k + 1 := ⟨M - 1, by omega⟩
        rw [show ((k + 1 : Nat) : Int) - 1 = (k : Int) by omega, toU8 k (by omega)] at h2
        exact Or.inr ⟨k, rfl, h2⟩
      · simp at hev

/-- **C16.** In any directory whose segments files have no higher generation than the one written,
writing any segment infos and reading the index back gives the same segments in the same order with
the same document counts, deletion and norm generations and compound flags, the same fields, and
the counter and version as written — with or without a deleter, and whatever the directory held,
even an older file of the very generation. -/
theorem c16_round_trip (s : SIS) (del : Bool) (d : Disk) (hf : SisFits s) (hv : s.version + 1 < 2 ^ 64) (hg : -1 ≤ s.generation) (hg2 : s.generation < 2 ^ 63 - 1)
    (hd : segmentsUpTo d (s.generation + 1)) :
    ∃ evs r, sisWrite s del = .ok evs ∧ sisRead (d.applyAll evs) = .ok r ∧
      r.segs = s.segs ∧ r.fis = s.fis ∧ r.counter = s.counter ∧ r.version = s.version + 1 ∧ r.generation = s.generation + 1 ∧
      readCurrentVersion (d.applyAll evs) = .ok (s.version + 1) := by
  obtain ⟨M, hM⟩ : ∃ M : Nat, s.generation + 1 = M := ⟨(s.generation + 1).toNat, by omega⟩
  have hM2 : M < 2 ^ 63 := by omega
  obtain ⟨n, tail, h1, h2, h3, h4⟩ := sisWrite_spec s del M hM hM2
  have hcf : SisFits (committed s) := ⟨Nat.mod_lt _ (by decide), hf.counter, hf.format, hf.size, hf.seg, hf.fisWF, hf.fis⟩
  have hver : (committed s).version = s.version + 1 := Nat.mod_eq_of_lt hv
  have hget : (d.applyAll (writeFile n (sisBytes (committed s)) ++ tail)).get n = some (sisBytes (committed s) ++ ((d.get n).getD []).drop (sisBytes (committed s)).length) := by
    rw [Disk.applyAll_append, Disk.get_applyAll_ne tail _ _ h3, Disk.get_writeFile]
  have hcur : currentGeneration (-1) (d.applyAll (writeFile n (sisBytes (committed s)) ++ tail)).names = .ok (M : Int) := by
    apply currentGeneration_max _ M hM2
    · intro m hm hseg
      rcases Disk.names_applyAll _ _ _ hm with hm | ⟨ev, hev, he⟩
      · obtain ⟨g, hg, e⟩ := hd m hm hseg
        exact ⟨g, by omega, e⟩
      · rw [List.mem_append] at hev
        rcases hev with hev | hev
        · rw [writeFile_name _ _ _ hev] at he
          subst he
          exact ⟨M, Nat.le_refl _, h1⟩
        · rcases h4 ev hev with h | ⟨g, hg, h⟩
          · rw [← he, h, isSeg_segmentsFile] at hseg; cases hseg
          · exact ⟨g, by omega, by rw [← he]; exact h⟩
    · refine ⟨n, ?_, h1⟩
      rw [← Disk.get_isSome, hget]; rfl
  have hrun := sisReadI_ok hM2 h1 hget hM hcf
  refine ⟨_, committed s, h2, findSegments_first _ _ M _ hcur hrun, rfl, rfl, rfl, hver, rfl, ?_⟩
  refine findSegments_first _ _ M _ hcur ?_
  have hb : ∀ rest, (rdBE 4 0 (beBytes 4 0 ++ (beBytes 8 (committed s).version ++ rest)) >>= fun f => rdBE 8 0 f.2 >>= fun v => (Res.ok v.1 : Res Nat)) = .ok (s.version + 1) := by
    intro rest
    rw [rdBE_beBytes 4 0 0 _ (by decide), Res.ok_bind]
    simp only
    rw [rdBE_beBytes 8 0 _ _ hcf.version, Res.ok_bind, hver, Nat.zero_mul, Nat.zero_add]
  simp only [sisReadVerI, toU8 M hM2, h1, Res.ok_bind, openInput, hget]
  have : sisBytes (committed s) ++ ((d.get n).getD []).drop (sisBytes (committed s)).length =
      beBytes 4 0 ++ (beBytes 8 (committed s).version ++ (beBytes 8 (committed s).counter ++ (vint (committed s).segs.length ++ (((committed s).segs.map siWrite).flatten ++ fisWrite (committed s).fis)) ++ ((d.get n).getD []).drop (sisBytes (committed s)).length)) := by
    simp only [sisBytes, List.append_assoc]
  rw [this]
  exact hb _

/-- Two segments, one with deletions, norms and a compound file; one field. -/
def sampleSis : SIS :=
  ⟨1000, 3, 4, 0, [⟨[95, 48], 70000, 2, [-1, 0, 3], true⟩, ⟨[95, 50], 1, -1, [], false⟩], ⟨1, 3, 0, [⟨[105], 0x3F800000, 13, 0⟩]⟩⟩

example : SisFits sampleSis ∧ segmentsUpTo [([95, 48, 46, 99, 102, 115], [1]), ([115, 101, 103, 109, 101, 110, 116, 115, 95, 52], [0])] (sampleSis.generation + 1) := by
  refine ⟨⟨by decide, by decide, rfl, by decide, ?_, ⟨by decide, by decide, by decide⟩, ⟨by decide, by decide, by decide, by decide, by decide⟩⟩, ?_⟩
  · intro si hsi
    simp only [sampleSis, List.mem_cons, List.not_mem_nil, or_false] at hsi
    rcases hsi with rfl | rfl <;> exact ⟨by decide, by decide, by decide, by decide, by decide⟩
  · intro n hn hs
    simp only [Disk.names, List.map_cons, List.map_nil, List.mem_cons, List.not_mem_nil, or_false] at hn
    rcases hn with rfl | rfl
    · exact absurd hs (by decide)
    · exact ⟨4, by decide, by decide +kernel⟩

/-- Norm generations: advancing one that is not there yet starts it at 0 and leaves the others. -/
theorem c16_advance_norm_gen (si : SI) (f j : Nat) :
    (advanceNormGen si f).normGens[j]? =
      if j = f then some ((si.normGens[f]?).getD (-1) + 1)
      else if j < si.normGens.length then si.normGens[j]? else if j < f then some (-1) else none := by
  unfold advanceNormGen
  simp only [List.getElem?_modify]
  by_cases hge : f ≥ si.normGens.length
  · rw [if_pos hge]
    by_cases hj : j = f
    · subst hj
      rw [if_pos rfl, List.getElem?_append_right hge, List.getElem?_replicate, if_pos (by omega), List.getElem?_eq_none hge]
      simp
    · rw [if_neg hj]
      have hfj : ¬ f = j := fun e => hj e.symm
      simp only [hfj, if_false]
      rw [List.getElem?_append]
      split
      · simp
      · rename_i hlt
        rw [List.getElem?_replicate]
        by_cases hjf : j < f
        · rw [if_pos (by omega), if_pos hjf]; rfl
        · rw [if_neg (by omega), if_neg hjf]; rfl
  · rw [if_neg hge]
    by_cases hj : j = f
    · subst hj
      have : j < si.normGens.length := by omega
      rw [if_pos rfl, List.getElem?_eq_getElem this]
      simp
    · rw [if_neg hj]
      have hfj : ¬ f = j := fun e => hj e.symm
      simp only [hfj, if_false]
      split
      · simp
      · rename_i hlt
        rw [if_neg (by omega), List.getElem?_eq_none (by omega)]; rfl

example : (advanceNormGen ⟨[95], 1, -1, [4], false⟩ 3).normGens = [4, -1, -1, 0] := by decide

#print axioms c16_round_trip
#print axioms c16_advance_norm_gen
end Ferret.Props
