import Verif.Lemmas.RamDir
import Verif.Lemmas.FsDir
import Verif.Model.CopyStore
import Verif.Spec.CopyStore

/-! Copying a store into memory (C98). -/

namespace Ferret.CopyStore
open Ferret Ferret.Spec
open Ferret.RamDir (DRel lookup_some lookup_none)

/-- What copying needs of the store copied: it reads as the directory does. -/
structure Reads {σ : Type} (src : Source σ) (R : σ → DState → Prop) : Prop where
  openIn : ∀ {x s n i}, R x s → lookupName s.names n = some i → ∃ x', src.doOp x (.openIn n) = .ok (.num s.ins.length, x') ∧ R x' { s with ins := s.ins ++ [some i] }
  length : ∀ {x s n i f}, R x s → lookupName s.names n = some i → s.files[i]? = some f → ∃ x', src.doOp x (.length n) = .ok (.num f.length, x') ∧ R x' s
  read : ∀ {x s h i f k}, R x s → s.ins[h]? = some (some i) → s.files[i]? = some f → k ≤ f.length → ∃ x', src.doOp x (.read h 0 k) = .ok (.bytes (f.take k), x') ∧ R x' s
  closeIn : ∀ {x s h i}, R x s → s.ins[h]? = some (some i) → ∃ x', src.doOp x (.closeIn h) = .ok (.unit, x') ∧ R x' { s with ins := s.ins.set h none }

theorem slice_zero (f : List Byte) (k : Nat) : slice f 0 k = f.take k := by simp [slice]

theorem ram_reads : Reads ramSource DRel where
  openIn h hl := RamDir.doOp_spec h (.openIn _) (by simp only [dstep, hl])
  length h hl hf := RamDir.doOp_spec h (.length _) (by simp only [dstep, hl, hf, Option.map_some])
  read h hh hf hk := RamDir.doOp_spec h (.read _ 0 _) (by simp only [dstep, hh, hf, Nat.zero_add, hk, if_true, slice_zero])
  closeIn h hh := RamDir.doOp_spec h (.closeIn _) (by simp only [dstep, hh])

theorem disk_reads {os0 : FsDir.OS} {dir : Name} (h0 : FsDir.Fresh os0 dir) : Reads (diskSource dir) (fun x s => FsDir.FRel os0 dir s x) where
  openIn h hl := FsDir.doOp_spec h0 h (op := .openIn _) (h.good _ (lookup_some hl)) (by simp only [dstep, hl])
  length h hl hf := FsDir.doOp_spec h0 h (op := .length _) ⟨h.good _ (lookup_some hl), by rw [hl]; rfl⟩ (by simp only [dstep, hl, hf, Option.map_some])
  read h hh hf hk := FsDir.doOp_spec h0 h (op := .read _ 0 _) trivial (by simp only [dstep, hh, hf, Nat.zero_add, hk, if_true, slice_zero])
  closeIn h hh := FsDir.doOp_spec h0 h (op := .closeIn _) trivial (by simp only [dstep, hh])

/-- What of a file is copied. -/
def part (f : List Byte) : List Byte := f.take (intLen f.length).toNat

/-- A length with which copying works. -/
def LenOk (k : Int) : Prop := 0 ≤ k ∧ k < 2147483647

theorem bufferFor_ok {k : Int} (h : LenOk k) : bufferFor k = .ok k.toNat := by
  obtain ⟨h1, h2⟩ := h
  unfold bufferFor
  rw [if_neg (by omega), if_neg (by omega)]

theorem intLen_small {n : Nat} (h : n < 2147483648) : intLen n = n := by
  unfold intLen
  rw [BitVec.toInt_eq_toNat_of_lt (by simp; omega)]
  simp
  omega

theorem intLen_le {n : Nat} : (intLen n).toNat ≤ n := by
  unfold intLen
  rw [BitVec.toInt_eq_toNat_cond]
  simp only [BitVec.toNat_ofNat]
  have := Nat.mod_le n (2 ^ 32)
  split <;> omega

section
variable {σ : Type} {src : Source σ} {R : σ → DState → Prop}

/-- **One file.** -/
theorem copyFile_spec (hs : Reads src R) {x : σ} {s : DState} {d : RamDir.Dir} {t : DState} {n : Name} {i : Nat} {f : List Byte}
    (hx : R x s) (hd : DRel d t) (hl : lookupName s.names n = some i) (hf : s.files[i]? = some f) (hk : LenOk (intLen f.length))
    (hn : lookupName t.names n = none) :
    ∃ x' d', copyFile src (x, d) n = .ok (x', d') ∧ R x' (readBy s 1) ∧
      DRel d' { t with files := t.files ++ [part f], names := (n, t.files.length) :: t.names, outs := t.outs ++ [none] } := by
  obtain ⟨d1, a1, r1⟩ := RamDir.doOp_spec hd (.openOut n) (o := .num t.outs.length) (s' := { t with
    files := t.files ++ [[]], names := (n, t.files.length) :: t.names, outs := t.outs ++ [some (t.files.length, 0)] }) (by simp only [dstep, hn])
  obtain ⟨x1, b1, q1⟩ := hs.openIn hx hl
  obtain ⟨x2, b2, q2⟩ := hs.length q1 hl hf
  obtain ⟨x3, b3, q3⟩ := hs.read (h := s.ins.length) (i := i) (f := f) (k := (intLen f.length).toNat) q2 (by simp) hf intLen_le
  obtain ⟨d2, a2, r2⟩ := RamDir.doOp_spec r1 (.write t.outs.length (part f)) (o := .unit) (s' := { t with
    files := t.files ++ [part f], names := (n, t.files.length) :: t.names, outs := t.outs ++ [some (t.files.length, (part f).length)] })
    (by simp [dstep, writeAt])
  obtain ⟨x4, b4, q4⟩ := hs.closeIn (h := s.ins.length) (i := i) q3 (by simp)
  obtain ⟨d3, a3, r3⟩ := RamDir.doOp_spec r2 (.closeOut t.outs.length) (o := .unit) (s' := { t with
    files := t.files ++ [part f], names := (n, t.files.length) :: t.names, outs := t.outs ++ [none] })
    (by simp [dstep])
  refine ⟨x4, d3, ?_, ?_, r3⟩
  · simp only [copyFile, a1, b1, Res.ok_bind, b2, bufferFor_ok hk, b3]
    rw [show List.take (intLen f.length).toNat f = part f from rfl, a2, Res.ok_bind, b4, Res.ok_bind, a3, Res.ok_bind]
  · have e : (s.ins ++ [some i]).set s.ins.length none = s.ins ++ List.replicate 1 none := by simp
    rw [e] at q4
    exact q4

theorem lookup_cons (n m : Name) (i : Nat) (l : List (Name × Nat)) : lookupName ((n, i) :: l) m = if n = m then some i else lookupName l m := by
  unfold lookupName
  rw [List.find?_cons]
  by_cases h : n = m
  · simp [h]
  · rw [if_neg h]
    have : ((n, i).1 == m) = false := by simpa using h
    rw [this]

theorem readBy_add (s : DState) (a b : Nat) : readBy (readBy s a) b = readBy s (a + b) := by
  simp [readBy, List.append_assoc]

theorem fileOf_readBy (s : DState) (a : Nat) (n : Name) : fileOf (readBy s a) n = fileOf s n := rfl

/-- **All the files of a list.** -/
theorem copyNames_spec (hs : Reads src R) : ∀ (l : List Name) (x : σ) (s : DState) (d : RamDir.Dir) (t : DState), R x s → DRel d t → l.Nodup →
    (∀ n ∈ l, lookupName t.names n = none) → (∀ n ∈ l, ∃ f, fileOf s n = some f ∧ LenOk (intLen f.length)) →
    (t.names.map (·.1)).Nodup → (∀ o ∈ t.outs, o = none) → t.ins = [] →
    ∃ x' d' t', copyNames src l (x, d) = .ok (x', d') ∧ R x' (readBy s l.length) ∧ DRel d' t' ∧ (t'.names.map (·.1)).Nodup ∧
      (∀ n, fileOf t' n = if n ∈ l then (fileOf s n).map part else fileOf t n) ∧ (∀ o ∈ t'.outs, o = none) ∧ t'.ins = [] := by
  intro l
  induction l with
  | nil =>
    intro x s d t hx hd _ _ _ h1 h2 h3
    refine ⟨x, d, t, rfl, ?_, hd, h1, fun n => by simp, h2, h3⟩
    simpa [readBy] using hx
  | cons n l ih =>
    intro x s d t hx hd hnd hnew hfile h1 h2 h3
    rw [List.nodup_cons] at hnd
    obtain ⟨f, hf, hk⟩ := hfile n List.mem_cons_self
    have hf' := hf
    unfold fileOf at hf'
    rw [Option.bind_eq_some_iff] at hf'
    obtain ⟨i, hl, hfi⟩ := hf'
    have hnn := hnew n List.mem_cons_self
    obtain ⟨x1, d1, a1, q1, r1⟩ := copyFile_spec hs hx hd hl hfi hk hnn
    obtain ⟨x2, d2, t2, a2, q2, r2, g1, g2, g3, g4⟩ := ih x1 (readBy s 1) d1 _ q1 r1 hnd.2
      (fun m hm => by
        rw [lookup_cons, if_neg (by rintro rfl; exact hnd.1 hm)]
        exact hnew m (List.mem_cons_of_mem _ hm))
      (fun m hm => hfile m (List.mem_cons_of_mem _ hm))
      (by
        simp only [List.map_cons, List.nodup_cons]
        refine ⟨?_, h1⟩
        intro hm
        obtain ⟨p, hp, e⟩ := List.mem_map.1 hm
        exact lookup_none hnn p hp e)
      (by
        intro o ho
        rcases List.mem_append.1 ho with ho | ho
        · exact h2 o ho
        · simpa using ho) h3
    refine ⟨x2, d2, t2, ?_, ?_, r2, g1, ?_, g3, g4⟩
    · simp only [copyNames, a1, Res.ok_bind, a2]
    · rw [readBy_add] at q2
      rw [List.length_cons, Nat.add_comm]
      exact q2
    · intro m
      rw [g2 m, fileOf_readBy]
      by_cases hm : m ∈ l
      · rw [if_pos hm, if_pos (List.mem_cons_of_mem _ hm)]
      · rw [if_neg hm]
        by_cases he : n = m
        · subst he
          rw [if_pos List.mem_cons_self, hf]
          simp [fileOf, lookup_cons]
        · rw [if_neg (by simp [hm, Ne.symm he])]
          simp only [fileOf, lookup_cons, if_neg he]
          cases hq : lookupName t.names m with
          | none => rfl
          | some j =>
            have := hd.nlt _ (lookup_some hq)
            simp only [Option.bind_some]
            rw [List.getElem?_append_left this]

/-- **The copy**, for names listed that are all names of the store. -/
theorem openAndCopy_spec (hs : Reads src R) {x : σ} {s : DState} {l : List Name} {keep : Name → Prop} (hx : R x s) (he : src.each x = .ok l) (hnd : l.Nodup)
    (hm : ∀ n, n ∈ l ↔ (fileOf s n).isSome ∧ keep n) (hlen : ∀ n f, keep n → fileOf s n = some f → LenOk (intLen f.length)) :
    ∃ x' d' t, openAndCopy src x = .ok (x', d') ∧ R x' (readBy s l.length) ∧ DRel d' t ∧ (t.names.map (·.1)).Nodup ∧
      (∀ n, keep n → fileOf t n = (fileOf s n).map part) ∧ (∀ n, ¬ keep n → fileOf t n = none) ∧ (∀ o ∈ t.outs, o = none) ∧ t.ins = [] := by
  obtain ⟨x', d', t, a, q, r, g1, g2, g3, g4⟩ := copyNames_spec hs l x s RamDir.new emptyDir hx RamDir.drel_new hnd (fun _ _ => rfl)
    (fun n hn => by
      obtain ⟨h1, h2⟩ := (hm n).1 hn
      obtain ⟨f, hf⟩ := Option.isSome_iff_exists.1 h1
      exact ⟨f, hf, hlen n f h2 hf⟩) List.nodup_nil (fun o ho => by simp [emptyDir] at ho) rfl
  refine ⟨x', d', t, by simp only [openAndCopy, he, Res.ok_bind, a], q, r, g1, ?_, ?_, g3, g4⟩
  · intro n hk
    rw [g2 n]
    by_cases hn : n ∈ l
    · rw [if_pos hn]
    · rw [if_neg hn]
      cases hf : fileOf s n with
      | none => rfl
      | some f => exact absurd ((hm n).2 ⟨by rw [hf]; rfl, hk⟩) hn
  · intro n hk
    rw [g2 n, if_neg (fun hn => hk ((hm n).1 hn).2)]
    rfl

end

theorem part_small {f : List Byte} (h : f.length < 2147483648) : part f = f := by
  unfold part
  rw [intLen_small h]
  simp

end Ferret.CopyStore
