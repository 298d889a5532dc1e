import Verif.Props.C17
import Verif.Lemmas.Deleter

/-! C30: the deleter of unused files. -/

namespace Ferret.Props
open Ferret Ferret.Spec Ferret.Names Ferret.Sis Ferret.Dlr

/-- What the segment infos say about a segment. -/
def segDesc (si : SI) : SegDesc :=
  ⟨si.name, si.compound, if si.delGen < 0 then none else some si.delGen.toNat, si.normGens.map fun g => if g < 0 then none else some g.toNat⟩

/-- Segments as an index has them: distinct names made from the counter, generations are ints. -/
structure SegsWF (segs : List SI) : Prop where
  name : ∀ si ∈ segs, isSegName si.name = true ∧ si.name.length ≤ 14
  distinct : (segs.map (·.name)).Pairwise (· ≠ ·)
  del : ∀ si ∈ segs, -1 ≤ si.delGen ∧ si.delGen < 2 ^ 31
  norms : ∀ si ∈ segs, ∀ g ∈ si.normGens, -1 ≤ g ∧ g < 2 ^ 31

theorem toU8_int (g : Int) (h : 0 ≤ g) (h' : g < 2 ^ 31) : toU 8 g = g.toNat := by
  obtain ⟨n, rfl⟩ : ∃ n : Nat, g = n := ⟨g.toNat, by omega⟩
  rw [toU8 n (by omega)]
  rfl

theorem numeral_inj36 {a b : Nat} (ha : a < 2 ^ 64) (hb : b < 2 ^ 64) (h : numeral 36 a = numeral 36 b) : a = b := by
  rw [← (numeral36 a ha).2.1, h, (numeral36 b hb).2.1]

theorem numeral_inj10 {a b : Nat} (ha : a < 2 ^ 31) (hb : b < 2 ^ 31) (h : numeral 10 a = numeral 10 b) : a = b := by
  rw [← (numeral10 a ha).2.1, h, (numeral10 b hb).2.1]

theorem numeral10_cons (f : Nat) (h : f < 2 ^ 31) : ∃ c cs, numeral 10 f = c :: cs ∧ 48 ≤ c.toNat ∧ c.toNat ≤ 57 ∧ (46 : Byte) ∉ numeral 10 f := by
  obtain ⟨h1, -, -⟩ := numeral10 f h
  cases e : numeral 10 f with
  | nil => exact absurd e (numeral_ne_nil 10 f (by decide))
  | cons c cs =>
    refine ⟨c, cs, rfl, (h1 c (by rw [e]; simp)).1, (h1 c (by rw [e]; simp)).2, fun hm => ?_⟩
    have := h1 46 (by rw [e]; exact hm)
    have e : (46 : Byte).toNat = 46 := rfl
    omega

/-- The segment a file belongs to, and its extension. -/
def fileParts : IndexFile → Option (Name × Name × Name)
  | .segments _ => none
  | .data s e => some (s, s, e)
  | .compound s => some (s, s, cfsExt)
  | .deletions s g => some (s, s ++ 95 :: numeral 36 g, delExt)
  | .norms s g f sep => some (s, s ++ 95 :: numeral 36 g, (if sep then 115 else 102) :: numeral 10 f)

theorem file_shape {f : IndexFile} (hf : f.valid = true) {seg stem ext : Name} (hp : fileParts f = some (seg, stem, ext)) :
    f.name = stem ++ 46 :: ext ∧ splitLast 46 f.name = some (stem, ext) ∧ dropGen stem = seg ∧ isSegName seg = true ∧ isIndexFile f.name = true ∧ f.name.head? = some 95 := by
  have hu : ∀ g : Nat, g < 2 ^ 31 → (95 : Byte) ∉ numeral 36 g := fun g hg => digit_ne_underscore (numeral36 g (by omega)).1
  have hhead : ∀ s : Name, isSegName s = true → ∀ r, (s ++ r).head? = some 95 := by
    intro s hs r
    obtain ⟨ds, rfl, -, -⟩ := segName_cons hs
    rfl
  cases f with
  | segments g => cases hp
  | data s e =>
    simp only [fileParts, Option.some.injEq, Prod.mk.injEq] at hp
    obtain ⟨rfl, rfl, rfl⟩ := hp
    simp only [IndexFile.valid, Bool.and_eq_true] at hf
    have h46 : ∀ e ∈ dataExts, (46 : Byte) ∉ e := by decide
    have hin : ∀ e ∈ dataExts, indexExts.contains e = true := by decide
    have he : e ∈ dataExts := List.contains_iff_mem.mp hf.2
    have hsp := splitLast_append s (h46 e he)
    refine ⟨rfl, hsp, dropGen_seg hf.1, hf.1, ?_, hhead _ hf.1 _⟩
    unfold isIndexFile
    rw [IndexFile.name, hsp]
    simp only [hin e he, Bool.true_or]
  | compound s =>
    simp only [fileParts, Option.some.injEq, Prod.mk.injEq] at hp
    obtain ⟨rfl, rfl, rfl⟩ := hp
    simp only [IndexFile.valid] at hf
    have hsp := splitLast_append (c := 46) s (b := cfsExt) (by decide)
    refine ⟨rfl, hsp, dropGen_seg hf, hf, ?_, hhead _ hf _⟩
    unfold isIndexFile
    rw [IndexFile.name, hsp]
    rfl
  | deletions s g =>
    simp only [fileParts, Option.some.injEq, Prod.mk.injEq] at hp
    obtain ⟨rfl, rfl, rfl⟩ := hp
    simp only [IndexFile.valid, Bool.and_eq_true, decide_eq_true_eq] at hf
    have hsp := splitLast_append (c := 46) (s ++ 95 :: numeral 36 g) (b := delExt) (by decide)
    refine ⟨rfl, hsp, dropGen_gen hf.1 (hu g hf.2), hf.1, ?_, ?_⟩
    · unfold isIndexFile
      rw [IndexFile.name, hsp]
      rfl
    · rw [IndexFile.name, List.append_assoc]; exact hhead _ hf.1 _
  | norms s g f sep =>
    simp only [fileParts, Option.some.injEq, Prod.mk.injEq] at hp
    obtain ⟨rfl, rfl, rfl⟩ := hp
    simp only [IndexFile.valid, Bool.and_eq_true, decide_eq_true_eq] at hf
    obtain ⟨c, cs, e, h1, h2, h3⟩ := numeral10_cons f hf.2
    have hsp := splitLast_append (c := 46) (s ++ 95 :: numeral 36 g) (b := (if sep then 115 else 102) :: numeral 10 f) (by
      intro hm
      rcases List.mem_cons.mp hm with h | h
      · revert h; cases sep <;> decide
      · exact h3 h)
    refine ⟨rfl, hsp, dropGen_gen hf.1.1 (hu g hf.1.2), hf.1.1, ?_, ?_⟩
    · unfold isIndexFile
      rw [IndexFile.name, hsp]
      have hd : digit1 ((if sep = true then 115 else 102) :: numeral 10 f) = true := by
        rw [e]
        simp only [digit1, Bool.and_eq_true, decide_eq_true_eq, UInt8.le_iff_toNat_le]
        exact ⟨h1, h2⟩
      simp only [hd, Bool.and_true]
      cases sep <;> simp
    · rw [IndexFile.name, List.append_assoc]; exact hhead _ hf.1.1 _

theorem not_ext_of_digit {c d : Byte} {cs : Name} (h1 : 48 ≤ c.toNat) (h2 : c.toNat ≤ 57) : indexExts.contains (d :: c :: cs) = false := by
  rw [← Bool.not_eq_true, List.contains_iff_mem]
  intro hm
  have : ∀ e ∈ indexExts, ∀ x y l, e = x :: y :: l → ¬ (48 ≤ y.toNat ∧ y.toNat ≤ 57) := by
    intro e he
    simp only [indexExts, List.mem_cons, List.not_mem_nil, or_false] at he
    rcases he with rfl | rfl | rfl | rfl | rfl | rfl | rfl | rfl | rfl | rfl <;>
      (intro x y l h; cases h; decide)
  exact this _ hm d c cs rfl ⟨h1, h2⟩

theorem fnForGeneration_del {seg : Name} (hl : seg.length ≤ 14) {g : Int} (h : 0 ≤ g) (h' : g < 2 ^ 31) :
    fnForGeneration seg (some [100, 101, 108]) g = .ok (some (IndexFile.deletions seg g.toNat).name) := by
  have hlen := (numeral36 g.toNat (by omega)).2.2.1
  unfold fnForGeneration
  rw [if_neg (by omega), toU8_int g h h', u64ToStr36_numeral nameMax _ (by omega) (by decide)]
  simp only [Res.ok_bind, sprintf]
  rw [if_pos (by simp only [List.length_append, List.length_cons, List.length_nil, nameMax]; omega)]
  rfl

theorem fnForGenField_norm {seg : Name} (hl : seg.length ≤ 14) {g : Int} (h : 0 ≤ g) (h' : g < 2 ^ 31) {f : Nat} (hf : f < 2 ^ 31) (sep : Bool) :
    fnForGenField seg (if sep then [115] else [102]) g f = .ok (some (IndexFile.norms seg g.toNat f sep).name) := by
  have hlen := (numeral36 g.toNat (by omega)).2.2.1
  have hlen10 := (numeral10 f hf).2.2
  unfold fnForGenField
  rw [if_neg (by omega), toU8_int g h h', u64ToStr36_numeral nameMax _ (by omega) (by decide), Res.ok_bind, decimal_numeral f hf, Res.ok_bind]
  simp only [sprintf]
  rw [if_pos (by cases sep <;> simp only [List.length_append, List.length_cons, List.length_nil, nameMax, if_true, if_false, Bool.false_eq_true] <;> omega)]
  cases sep <;> rfl

theorem orphaned_spec {si : SI} (hn : si.name.length ≤ 14) (hdel : -1 ≤ si.delGen ∧ si.delGen < 2 ^ 31) (hnorm : ∀ g ∈ si.normGens, -1 ≤ g ∧ g < 2 ^ 31)
    {f : IndexFile} (hf : f.valid = true) {stem ext : Name} (hp : fileParts f = some (si.name, stem, ext)) :
    (∃ b, orphaned si f.name si.name (some ext) = .ok b ∧ (b = false ↔ (segDesc si).refers f)) ∨
    (∃ seg g fld sep, f = .norms seg g fld sep ∧ (∀ x, (segDesc si).norms[fld]? ≠ some (some x)) ∧ (si.compound = true → sep = true) ∧ orphaned si f.name si.name (some ext) = .ub) := by
  obtain ⟨hnm, hsp, -, hseg, -, -⟩ := file_shape hf hp
  have hcfs : isCfsFile f.name = ((indexExts.contains ext && ext != [100, 101, 108] && ext != [103, 101, 110] && ext != [99, 102, 115])
      || (ext.head? == some 102 && digit1 ext)) := by
    unfold isCfsFile; rw [hsp]
  cases f with
  | segments g => cases hp
  | data s e =>
    left
    simp only [fileParts, Option.some.injEq, Prod.mk.injEq] at hp
    obtain ⟨hs, rfl, rfl⟩ := hp
    subst hs
    simp only [IndexFile.valid, Bool.and_eq_true] at hf
    have he : e ∈ dataExts := List.contains_iff_mem.mp hf.2
    have h1 : ∀ e ∈ dataExts, ((indexExts.contains e && e != [100, 101, 108] && e != [103, 101, 110] && e != [99, 102, 115])
      || (e.head? == some 102 && digit1 e)) = true ∧ e ≠ [100, 101, 108] ∧ digit1 e = false ∧ (e == [99, 102, 115]) = false := by decide
    obtain ⟨c1, c2, c3, c4⟩ := h1 e he
    rw [c1] at hcfs
    unfold orphaned
    rw [hcfs]
    simp only [c2, c3, c4, if_false, Bool.false_and, Bool.false_eq_true, and_false, true_and]
    cases hc : si.compound with
    | true => exact ⟨true, by simp, by simp [SegDesc.refers, segDesc, hc]⟩
    | false => exact ⟨false, by simp, by simp [SegDesc.refers, segDesc, hc, he]⟩
  | compound s =>
    left
    simp only [fileParts, Option.some.injEq, Prod.mk.injEq] at hp
    obtain ⟨hs, rfl, rfl⟩ := hp
    subst hs
    have : isCfsFile (IndexFile.compound si.name).name = false := by rw [hcfs]; decide
    unfold orphaned
    rw [this]
    refine ⟨!si.compound, ?_, ?_⟩
    · simp [cfsExt]
    · simp [SegDesc.refers, segDesc]
  | deletions s g =>
    left
    simp only [fileParts, Option.some.injEq, Prod.mk.injEq] at hp
    obtain ⟨hs, rfl, rfl⟩ := hp
    subst hs
    simp only [IndexFile.valid, Bool.and_eq_true, decide_eq_true_eq] at hf
    have : isCfsFile (IndexFile.deletions si.name g).name = false := by rw [hcfs]; decide
    unfold orphaned
    rw [this]
    simp only [Bool.false_eq_true, false_and, if_false, delExt, if_true]
    by_cases hd : si.delGen < 0
    · have : si.delGen = -1 := by omega
      refine ⟨true, ?_, ?_⟩
      · unfold fnForGeneration; rw [if_pos this]; rfl
      · simp [SegDesc.refers, segDesc, hd]
    · rw [fnForGeneration_del hn (by omega) hdel.2, Res.ok_bind]
      refine ⟨_, rfl, ?_⟩
      rw [bne_eq_false_iff_eq, Option.some.injEq]
      simp only [SegDesc.refers, segDesc, if_neg hd, Option.some.injEq, true_and, IndexFile.name]
      constructor
      · intro h
        have h := (split_last (c := 46) (by decide) (by decide) h).1
        have h := List.cons.inj (List.append_cancel_left h)
        exact numeral_inj36 (by omega) (by omega) h.2
      · intro h; rw [h]
  | norms s g fld sep =>
    simp only [fileParts, Option.some.injEq, Prod.mk.injEq] at hp
    obtain ⟨hs, rfl, rfl⟩ := hp
    subst hs
    simp only [IndexFile.valid, Bool.and_eq_true, decide_eq_true_eq] at hf
    obtain ⟨c, cs, e, c1, c2, c3⟩ := numeral10_cons fld hf.2
    have hd1 : digit1 ((if sep = true then 115 else 102) :: numeral 10 fld) = true := by
      rw [e]
      simp only [digit1, Bool.and_eq_true, decide_eq_true_eq, UInt8.le_iff_toNat_le]
      exact ⟨c1, c2⟩
    have hcfs' : isCfsFile (IndexFile.norms si.name g fld sep).name = !sep := by
      rw [hcfs, hd1, e, not_ext_of_digit c1 c2]
      cases sep <;> simp
    have hne : ((if sep = true then 115 else 102) :: numeral 10 fld) ≠ [100, 101, 108] := by
      cases sep <;> intro h <;> cases h
    have hh : (((if sep = true then (115 : Byte) else 102) :: numeral 10 fld).head? = some 115 ∨ ((if sep = true then (115 : Byte) else 102) :: numeral 10 fld).head? = some 102) := by
      cases sep <;> simp
    have hat : atoi 0 ((if sep = true then (115 : Byte) else 102) :: numeral 10 fld).tail = .ok fld := by
      obtain ⟨n1, n2, -⟩ := numeral10 fld hf.2
      rw [List.tail_cons, atoi_spec _ 0 n1 (by rw [n2]; exact hf.2), n2]
    unfold orphaned
    rw [hcfs']
    by_cases hcomp : si.compound = true ∧ sep = false
    · left
      refine ⟨true, ?_, ?_⟩
      · rw [if_pos (by simp [hcomp])]
      · simp [SegDesc.refers, segDesc, hcomp]
    · rw [if_neg (by simp only [Bool.not_eq_true']; exact fun h => hcomp ⟨h.2, h.1⟩)]
      simp only [if_neg hne, if_pos (And.intro hh hd1), hat, Res.ok_bind]
      unfold normFileName
      cases hg : si.normGens[fld]? with
      | none =>
        right
        refine ⟨si.name, g, fld, sep, rfl, fun x => ?_, fun hc => ?_, by simp⟩
        · simp [segDesc, List.getElem?_map, hg]
        · cases hs : sep with
          | true => rfl
          | false => exact absurd ⟨hc, hs⟩ hcomp
      | some g' =>
        have hgb := hnorm g' (List.mem_of_getElem? hg)
        by_cases hneg : g' < 0
        · right
          refine ⟨si.name, g, fld, sep, rfl, fun x => ?_, fun hc => ?_, by simp [hneg]⟩
          · simp [segDesc, List.getElem?_map, hg, hneg]
          · cases hs : sep with
            | true => rfl
            | false => exact absurd ⟨hc, hs⟩ hcomp
        · left
          have hsep : (if si.compound = true ∧ g' > 0 then [115] else [102] : Name) = if decide (si.compound = true ∧ g' > 0) = true then [115] else [102] := by
            by_cases h : si.compound = true ∧ g' > 0 <;> simp [h]
          simp only [if_neg hneg]
          rw [hsep, fnForGenField_norm hn (by omega) hgb.2 hf.2, Res.ok_bind]
          refine ⟨_, rfl, ?_⟩
          rw [bne_eq_false_iff_eq]
          simp only [SegDesc.refers, segDesc, List.getElem?_map, hg, Option.map_some, if_neg hneg, Option.some.injEq, true_and]
          have hname : (IndexFile.norms si.name g'.toNat fld (decide (si.compound = true ∧ g' > 0))).name = (IndexFile.norms si.name g fld sep).name ↔
              g'.toNat = g ∧ decide (si.compound = true ∧ g' > 0) = sep := by
            constructor
            · intro h
              simp only [IndexFile.name] at h
              have h46 : ∀ b : Bool, (46 : Byte) ∉ (if b = true then (115 : Byte) else 102) :: numeral 10 fld := by
                intro b hm
                rcases List.mem_cons.mp hm with h | h
                · revert h; cases b <;> decide
                · exact c3 h
              have h := split_last (c := 46) (h46 _) (h46 _) h
              refine ⟨numeral_inj36 (by omega) (by omega) (List.cons.inj (List.append_cancel_left h.1)).2, ?_⟩
              have := (List.cons.inj h.2).1
              revert this
              generalize decide (si.compound = true ∧ g' > 0) = x
              cases x <;> cases sep <;> decide
            · intro h; rw [h.1, h.2]
          rw [hname]
          constructor
          · intro h
            refine ⟨h.1, ?_, ?_⟩
            · cases hc : si.compound with
              | false => rw [← h.2]; simp [hc]
              | true =>
                cases hs : sep with
                | true => rfl
                | false => exact absurd ⟨hc, hs⟩ hcomp
            · intro hc
              have hs : sep = true := by
                cases hs : sep with
                | true => rfl
                | false => exact absurd ⟨hc, hs⟩ hcomp
              rw [hs, decide_eq_true_eq] at h
              omega
          · intro h
            refine ⟨h.1, ?_⟩
            cases hc : si.compound with
            | false => rw [h.2.1, hc]; simp
            | true =>
              have := h.2.2 hc
              rw [h.2.1, hc]
              simp only [decide_eq_true_eq, true_and]
              omega

theorem current_some {segs : List SI} {n : Name} {si : SI} (h : current segs n = some si) : si ∈ segs ∧ si.name = n := by
  unfold current at h
  refine ⟨?_, ?_⟩
  · have := List.mem_of_find?_eq_some h
    simpa using this
  · simpa using List.find?_some h

theorem current_of_mem {segs : List SI} (hw : (segs.map (·.name)).Pairwise (· ≠ ·)) {si : SI} (h : si ∈ segs) : current segs si.name = some si := by
  cases e : current segs si.name with
  | none =>
    unfold current at e
    rw [List.find?_eq_none] at e
    exact absurd (by simp) (e si (by simpa using h))
  | some sj =>
    obtain ⟨h1, h2⟩ := current_some e
    congr 1
    clear e
    induction segs with
    | nil => cases h
    | cons a as ih =>
      rw [List.map_cons, List.pairwise_cons] at hw
      rcases List.mem_cons.mp h with e | h' <;> rcases List.mem_cons.mp h1 with e1 | h1'
      · rw [e, e1]
      · subst e; exact absurd h2.symm (hw.1 _ (List.mem_map_of_mem h1'))
      · subst e1; exact absurd h2 (hw.1 _ (List.mem_map_of_mem h'))
      · exact ih hw.2 h' h1'

theorem queueAll_spec {segs : List SI} {curr : Name} : ∀ {names l : List Name}, queueAll segs curr names = .ok l →
    (∀ n, n ∈ l ↔ n ∈ names ∧ deletable segs curr n = .ok true) ∧ ∀ n ∈ names, ∃ b, deletable segs curr n = .ok b := by
  intro names
  induction names with
  | nil => intro l h; cases h; simp
  | cons m ms ih =>
    intro l h
    simp only [queueAll] at h
    obtain ⟨b, h1, h⟩ := Res.bind_eq_ok.mp h
    obtain ⟨r, h2, h⟩ := Res.bind_eq_ok.mp h
    cases h
    obtain ⟨i1, i2⟩ := ih h2
    refine ⟨fun n => ?_, fun n hn => ?_⟩
    · cases b with
      | true =>
        rw [if_pos rfl, List.mem_cons, List.mem_cons, i1]
        constructor
        · rintro (rfl | h)
          · exact ⟨Or.inl rfl, h1⟩
          · exact ⟨Or.inr h.1, h.2⟩
        · rintro ⟨rfl | h, h'⟩
          · exact Or.inl rfl
          · exact Or.inr ⟨h, h'⟩
      | false =>
        rw [if_neg (by decide), List.mem_cons, i1]
        constructor
        · intro h; exact ⟨Or.inr h.1, h.2⟩
        · rintro ⟨rfl | h, h'⟩
          · rw [h1] at h'; cases h'
          · exact ⟨h, h'⟩
    · rcases List.mem_cons.mp hn with rfl | hn
      · exact ⟨b, h1⟩
      · exact i2 n hn

theorem queueAll_ok {segs : List SI} {curr : Name} : ∀ {names : List Name}, (∀ n ∈ names, ∃ b, deletable segs curr n = .ok b) → ∃ l, queueAll segs curr names = .ok l := by
  intro names
  induction names with
  | nil => intro _; exact ⟨[], rfl⟩
  | cons m ms ih =>
    intro h
    obtain ⟨b, hb⟩ := h m (by simp)
    obtain ⟨r, hr⟩ := ih (fun n hn => h n (by simp [hn]))
    simp only [queueAll, hb, hr, Res.ok_bind]
    exact ⟨_, rfl⟩

theorem segfn_name (g : Nat) (h : g < 2 ^ 64) : segfn g = .ok (IndexFile.segments g).name := by
  have hl := (numeral36 g h).2.2.1
  unfold segfn
  rw [u64ToStr36_numeral nameMax g h (by decide), Res.ok_bind, sprintf, if_pos]
  · rfl
  · simp only [List.length_append, List.length_cons, List.length_nil, segmentsFile, nameMax]; omega

theorem segments_name_inj {a b : Nat} (ha : a < 2 ^ 64) (hb : b < 2 ^ 64) (h : (IndexFile.segments a).name = (IndexFile.segments b).name) : a = b :=
  segfn_inj ha hb (segfn_name a ha) (by rw [h]; exact segfn_name b hb)

/-- What happens to a file name of an index. -/
theorem deletable_spec {segs : List SI} (hw : SegsWF segs) {gen : Nat} (hgen : gen < 2 ^ 63) {f : IndexFile} (hf : f.valid = true) {b : Bool}
    (h : deletable segs (IndexFile.segments gen).name f.name = .ok b) : b = false ↔ commitRefers gen (segs.map segDesc) f := by
  cases hp : fileParts f with
  | none =>
    cases f with
    | segments g =>
      simp only [IndexFile.valid, decide_eq_true_eq] at hf
      simp only [commitRefers]
      have hd : (46 : Byte) ∉ (IndexFile.segments g).name := by
        intro hm
        rw [IndexFile.name, List.mem_append, List.mem_cons] at hm
        rcases hm with h | h | h
        · revert h; decide
        · cases h
        · exact digit_ne_dot (numeral36 g (by omega)).1 h
      have hi : isIndexFile (IndexFile.segments g).name = true := by
        unfold isIndexFile
        rw [splitLast_none hd]
        show segmentsFile.isPrefixOf (segmentsFile ++ _) = true
        rw [List.isPrefixOf_iff_prefix]
        exact List.prefix_append _ _
      by_cases he : g = gen
      · subst he
        unfold deletable at h
        rw [if_neg (fun h => h.2.1 rfl)] at h
        cases h
        simp
      · have hne : (IndexFile.segments g).name ≠ (IndexFile.segments gen).name := fun e => he (segments_name_inj (by omega) (by omega) e)
        have hns : (IndexFile.segments g).name ≠ segmentsFile := segfn_ne_segmentsFile (by omega) (segfn_name g (by omega))
        unfold deletable at h
        rw [if_pos ⟨hi, hne, hns⟩] at h
        split at h
        · simp only [splitLast_none hd] at h
          have hdg : ∃ t, dropGen (IndexFile.segments g).name = 115 :: t := by
            simp only [IndexFile.name, segmentsName, List.cons_append, dropGen]
            split <;> exact ⟨_, rfl⟩
          obtain ⟨t, ht⟩ := hdg
          rw [ht] at h
          cases hc : current segs (115 :: t) with
          | none =>
            simp only [hc] at h
            cases h
            simp [he]
          | some si =>
            obtain ⟨m1, m2⟩ := current_some hc
            obtain ⟨ds, e, -⟩ := segName_cons (hw.name si m1).1
            rw [m2] at e
            cases e
        · cases h
    | _ => cases hp
  | some p =>
    obtain ⟨seg, stem, ext⟩ := p
    obtain ⟨hnm, hsp, hdg, hseg, hi, hhd⟩ := file_shape hf hp
    have hne : f.name ≠ (IndexFile.segments gen).name := by
      intro e; rw [e] at hhd; cases hhd
    have hns : f.name ≠ segmentsFile := by
      intro e; rw [e] at hhd; cases hhd
    have hcr : commitRefers gen (segs.map segDesc) f ↔ ∃ si ∈ segs, (segDesc si).refers f := by
      cases f with
      | segments g => cases hp
      | _ =>
        simp only [commitRefers, List.mem_map]
        constructor
        · rintro ⟨_, ⟨si, h1, rfl⟩, h2⟩; exact ⟨si, h1, h2⟩
        · rintro ⟨si, h1, h2⟩; exact ⟨_, ⟨si, h1, rfl⟩, h2⟩
    have hrn : ∀ si, (segDesc si).refers f → seg = si.name := by
      intro si hr
      cases f with
      | segments g => cases hp
      | _ =>
        simp only [fileParts, Option.some.injEq, Prod.mk.injEq] at hp
        rw [← hp.1]
        simp only [SegDesc.refers] at hr
        first | exact hr.2.1 | exact hr.2 | exact hr.1
    rw [hcr]
    unfold deletable at h
    rw [if_pos ⟨hi, hne, hns⟩] at h
    split at h
    · simp only [hsp, hdg] at h
      cases hc : current segs seg with
      | none =>
        simp only [hc] at h
        cases h
        simp only [Bool.true_eq_false, false_iff]
        rintro ⟨si, hm, hr⟩
        have := hrn si hr
        subst this
        rw [current_of_mem hw.distinct hm] at hc
        cases hc
      | some si =>
        simp only [hc] at h
        obtain ⟨m1, rfl⟩ := current_some hc
        rcases orphaned_spec (hw.name si m1).2 (hw.del si m1) (hw.norms si m1) hf hp with ⟨b', h1, h2⟩ | ⟨_, _, _, _, _, _, _, h1⟩
        · rw [h1] at h
          cases h
          rw [h2]
          constructor
          · intro h; exact ⟨si, m1, h⟩
          · rintro ⟨sj, hm, hr⟩
            have := hrn sj hr
            have h3 := current_of_mem hw.distinct hm
            rw [← this, hc] at h3
            cases h3
            exact hr
        · rw [h1] at h; cases h
    · cases h

theorem findDeletable_eq {d : Disk} {s : SIS} {gen : Nat} (hg : s.generation = gen) (h : Holds d s) :
    findDeletable s d.names = queueAll s.segs (IndexFile.segments gen).name d.names := by
  have hM2 : gen < 2 ^ 63 := by have := h.gen; omega
  obtain ⟨n, junk, h1, h2⟩ := h.file
  rw [hg, toU8 gen hM2] at h1
  have hcur := currentGeneration_max d.names gen hM2 (fun m hm hs => by
    obtain ⟨g, hg', e⟩ := h.newest m hm hs
    exact ⟨g, by omega, e⟩) ⟨n, by rw [← Disk.get_isSome, h2]; rfl, h1⟩
  unfold findDeletable
  rw [hcur, Res.ok_bind, toU8 gen hM2, segfn_name gen (by omega), Res.ok_bind]

theorem get_foldl_del : ∀ (l : List Name) (d : Disk) (n : Name), (l.foldl (fun d n => d.apply (.del n)) d).get n = if n ∈ l then none else d.get n := by
  intro l
  induction l with
  | nil => intro d n; simp
  | cons m ms ih =>
    intro d n
    rw [List.foldl_cons, ih]
    by_cases hm : n ∈ ms
    · simp [hm]
    · rw [if_neg hm]
      by_cases he : n = m
      · subst he
        rw [Disk.get_del]; simp
      · rw [Disk.get_apply_ne _ _ _ (fun e => he e.symm), if_neg (by simp [he, hm])]

/-- **C30.** The directory holds the commit `s` and no newer segments file. After the deleter has run,
every file the commit refers to is as it was; every other file of an index is gone; and so opening
the index still gives `s`. The file "segments" is as it was. -/
theorem c30_deleter_partial (s : SIS) (d d' : Disk) (gen : Nat) (hg : s.generation = gen) (h : Holds d s) (hw : SegsWF s.segs)
    (hr : deleteDeletable s d = .ok d') :
    (∀ f : IndexFile, f.valid = true → commitRefers gen (s.segs.map segDesc) f → d'.get f.name = d.get f.name) ∧
    (∀ f : IndexFile, f.valid = true → ¬ commitRefers gen (s.segs.map segDesc) f → d'.get f.name = none) ∧
    d'.get segmentsName = d.get segmentsName ∧
    sisRead d' = .ok s := by
  have hM2 : gen < 2 ^ 63 := by have := h.gen; omega
  unfold deleteDeletable at hr
  rw [findDeletable_eq hg h] at hr
  obtain ⟨l, hl, hr⟩ := Res.bind_eq_ok.mp hr
  cases hr
  obtain ⟨q1, q2⟩ := queueAll_spec hl
  have hkeep : ∀ f : IndexFile, f.valid = true → commitRefers gen (s.segs.map segDesc) f → f.name ∉ l := by
    intro f hf hc hm
    have := ((q1 f.name).mp hm).2
    have := (deletable_spec hw hM2 hf this).mpr hc
    cases this
  have hfile : (l.foldl (fun d n => d.apply (.del n)) d).get (IndexFile.segments gen).name = d.get (IndexFile.segments gen).name := by
    rw [get_foldl_del, if_neg (hkeep (.segments gen) (by simpa [IndexFile.valid] using hM2) rfl)]
  refine ⟨fun f hf hc => ?_, fun f hf hc => ?_, ?_, ?_⟩
  · rw [get_foldl_del, if_neg (hkeep f hf hc)]
  · rw [get_foldl_del]
    split
    · rfl
    · rename_i hn
      cases hd : d.get f.name with
      | none => rfl
      | some c =>
        exfalso
        have hmem : f.name ∈ d.names := by rw [← Disk.get_isSome, hd]; rfl
        obtain ⟨b, hb⟩ := q2 _ hmem
        cases b with
        | true => exact hn ((q1 _).mpr ⟨hmem, hb⟩)
        | false => exact hc ((deletable_spec hw hM2 hf hb).mp rfl)
  · rw [get_foldl_del, if_neg]
    intro hm
    have := ((q1 _).mp hm).2
    unfold deletable at this
    rw [if_neg (fun h => h.2.2 rfl)] at this
    cases this
  · apply Holds.read
    obtain ⟨n, junk, h1, h2⟩ := h.file
    refine ⟨h.gen, h.fits, ⟨n, junk, h1, ?_⟩, ?_⟩
    · rw [hg, toU8 gen hM2, segfn_name gen (by omega)] at h1
      cases h1
      rw [hfile, h2]
    · intro m hm hs
      apply h.newest m _ hs
      rw [← Disk.get_isSome] at hm ⊢
      rw [get_foldl_del] at hm
      split at hm
      · cases hm
      · exact hm

/-- The deleter is defined: if every index file in the directory is one an index makes, with a name
below 100 characters, and no separate norms file is there for a field of a segment for which the
commit has no norms. (Otherwise an uninitialised buffer is compared, see `c30_orphaned_norms`.) -/
theorem c30_defined (s : SIS) (d : Disk) (gen : Nat) (hg : s.generation = gen) (h : Holds d s) (hw : SegsWF s.segs)
    (hnames : ∀ n ∈ d.names, isIndexFile n = true → n = segmentsName ∨ ∃ f : IndexFile, f.valid = true ∧ n = f.name ∧ n.length < 100 ∧
      ∀ seg g fld sep, f = .norms seg g fld sep → ∀ si ∈ s.segs, si.name = seg → ∃ x, (segDesc si).norms[fld]? = some (some x)) :
    ∃ d', deleteDeletable s d = .ok d' := by
  have hM2 : gen < 2 ^ 63 := by have := h.gen; omega
  unfold deleteDeletable
  rw [findDeletable_eq hg h]
  suffices hq : ∃ l, queueAll s.segs (IndexFile.segments gen).name d.names = .ok l by
    obtain ⟨l, hl⟩ := hq
    rw [hl, Res.ok_bind]
    exact ⟨_, rfl⟩
  apply queueAll_ok
  intro n hn
  unfold deletable
  by_cases hi : isIndexFile n = true ∧ n ≠ (IndexFile.segments gen).name ∧ n ≠ segmentsFile
  · rw [if_pos hi]
    rcases hnames n hn hi.1 with e | ⟨f, hf, rfl, hlen, hno⟩
    · exact absurd e hi.2.2
    · rw [if_pos (show _ < nameMax from hlen)]
      cases hp : fileParts f with
      | none =>
        cases f with
        | segments g =>
          simp only [IndexFile.valid, decide_eq_true_eq] at hf
          have hd : (46 : Byte) ∉ (IndexFile.segments g).name := by
            intro hm
            rw [IndexFile.name, List.mem_append, List.mem_cons] at hm
            rcases hm with h | h | h
            · revert h; decide
            · cases h
            · exact digit_ne_dot (numeral36 g (by omega)).1 h
          simp only [splitLast_none hd]
          have hdg : ∃ t, dropGen (IndexFile.segments g).name = 115 :: t := by
            simp only [IndexFile.name, segmentsName, List.cons_append, dropGen]
            split <;> exact ⟨_, rfl⟩
          obtain ⟨t, ht⟩ := hdg
          rw [ht]
          cases hc : current s.segs (115 :: t) with
          | none => exact ⟨_, rfl⟩
          | some si =>
            obtain ⟨m1, m2⟩ := current_some hc
            obtain ⟨ds, e, -⟩ := segName_cons (hw.name si m1).1
            rw [m2] at e
            cases e
        | _ => cases hp
      | some p =>
        obtain ⟨seg, stem, ext⟩ := p
        obtain ⟨hnm, hsp, hdg, hseg, -, hhd⟩ := file_shape hf hp
        simp only [hsp, hdg]
        cases hc : current s.segs seg with
        | none => exact ⟨_, rfl⟩
        | some si =>
          obtain ⟨m1, rfl⟩ := current_some hc
          rcases orphaned_spec (hw.name si m1).2 (hw.del si m1) (hw.norms si m1) hf hp with ⟨b', h1, h2⟩ | ⟨seg, g, fld, sep, e, hnone, -, h1⟩
          · exact ⟨b', h1⟩
          · exfalso
            subst e
            simp only [fileParts, Option.some.injEq, Prod.mk.injEq] at hp
            obtain ⟨x, hx⟩ := hno seg g fld sep rfl si m1 hp.1.symm
            exact hnone x hx
  · rw [if_neg hi]
    exact ⟨_, rfl⟩

/-! ### Examples and witnesses -/

/-- A directory with: a live compound segment and its deletions, norms written later, an old
deletions file, a data file left after the compound file was made, a merged segment, an old
segments file and a file of someone else. -/
def messySis : SIS := ⟨7, 5, 2, 0, [⟨[95, 48], 5, 1, [0, 2], true⟩, ⟨[95, 51], 2, -1, [0], false⟩], tinyFis⟩

def messyDisk : Disk :=
  [((IndexFile.compound [95, 48]).name, [1]), ((IndexFile.deletions [95, 48] 1).name, [2]), ((IndexFile.norms [95, 48] 2 1 true).name, [3]),
   ((IndexFile.deletions [95, 48] 0).name, [4]), ((IndexFile.data [95, 48] [116, 105, 115]).name, [5]), ((IndexFile.norms [95, 48] 1 1 true).name, [6]),
   ((IndexFile.norms [95, 48] 0 0 false).name, [7]), ((IndexFile.data [95, 51] [116, 105, 115]).name, [8]), ((IndexFile.norms [95, 51] 0 0 false).name, [9]),
   ((IndexFile.compound [95, 49]).name, [10]), ((IndexFile.segments 1).name, []), ((IndexFile.segments 2).name, sisBytes messySis), ([120, 46, 116, 120, 116], [11])]

example : (deleteDeletable messySis messyDisk >>= fun d => .ok d.names) = .ok
    [(IndexFile.compound [95, 48]).name, (IndexFile.deletions [95, 48] 1).name, (IndexFile.norms [95, 48] 2 1 true).name,
     (IndexFile.data [95, 51] [116, 105, 115]).name, (IndexFile.norms [95, 51] 0 0 false).name, (IndexFile.segments 2).name, [120, 46, 116, 120, 116]] := by
  decide +kernel

example : SegsWF messySis.segs := by
  refine ⟨by decide, by decide, by decide, by decide⟩

/-- The newest segments file must be the one read. After a crash in the middle of a commit, opening
the index falls back on the file before (C17), but the deleter takes the partial file for the
current one and removes the only good one: opening a writer after a crash makes the index
unreadable. -/
theorem c30_writer_open_after_crash_loses_index :
    ∃ d1 d2, d1 = disk2.applyAll ((commitEvs (addedSis 2)).take 20) ∧ sisRead d1 = .ok (oldSis 2) ∧
      deleteDeletable (oldSis 2) d1 = .ok d2 ∧ Disk.get d2 (segName 50) = none ∧ sisRead d2 = .raise .io := by
  refine ⟨_, _, rfl, ?_, rfl, ?_, ?_⟩ <;> decide +kernel

/-- A separate norms file for a field without norms makes the deleter read an uninitialised buffer. -/
theorem c30_orphaned_norms :
    (deleteDeletable (oldSis 2) (((IndexFile.norms [95, 48] 1 3 true).name, []) :: disk2)).isUB = true := by
  decide +kernel

#print axioms c30_deleter_partial
#print axioms c30_defined
#print axioms c30_writer_open_after_crash_loses_index
#print axioms c30_orphaned_norms
end Ferret.Props
