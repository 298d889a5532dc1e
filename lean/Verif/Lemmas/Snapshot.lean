import Verif.Model.Snapshot
import Verif.Props.C10
import Verif.Props.C14
import Verif.Props.C30

/-! Lemmas for snapshots: which names can be written again. -/

namespace Ferret.Snap
open Ferret Ferret.Spec Ferret.Names Ferret.Sis Ferret.Dlr Ferret.Props

/-! ### File names -/

theorem fileParts_some {f : IndexFile} (h : ∀ g, f ≠ .segments g) : ∃ s stem ext, fileParts f = some (s, stem, ext) := by
  cases f with
  | segments g => exact absurd rfl (h g)
  | data s e => exact ⟨_, _, _, rfl⟩
  | compound s => exact ⟨_, _, _, rfl⟩
  | deletions s g => exact ⟨_, _, _, rfl⟩
  | norms s g f sep => exact ⟨_, _, _, rfl⟩

/-- Two names of files of segments are only equal if the parts are. -/
theorem parts_of_name {f f' : IndexFile} (hf : f.valid = true) (hf' : f'.valid = true) (h : f.name = f'.name)
    {s stem ext s' stem' ext' : Name} (hp : fileParts f = some (s, stem, ext)) (hp' : fileParts f' = some (s', stem', ext')) :
    s = s' ∧ stem = stem' ∧ ext = ext' := by
  obtain ⟨-, h1, h2, -⟩ := file_shape hf hp
  obtain ⟨-, h1', h2', -⟩ := file_shape hf' hp'
  rw [h, h1', Option.some.injEq, Prod.mk.injEq] at h1
  exact ⟨by rw [← h2, ← h2', h1.1], h1.1.symm, h1.2.symm⟩

/-- A file of deletions has a name of its own. -/
theorem deletions_name {s : Name} {g : Nat} {f : IndexFile} (hv : (IndexFile.deletions s g).valid = true) (hf : f.valid = true)
    (hs : ∀ g, f ≠ .segments g) (h : f.name = (IndexFile.deletions s g).name) : f = .deletions s g := by
  obtain ⟨a, b, c, hp⟩ := fileParts_some hs
  obtain ⟨rfl, rfl, rfl⟩ := parts_of_name hf hv h hp rfl
  simp only [IndexFile.valid, Bool.and_eq_true, decide_eq_true_eq] at hv
  cases f with
  | segments g => cases hp
  | data t e =>
    simp only [fileParts, Option.some.injEq, Prod.mk.injEq] at hp
    obtain ⟨rfl, h2, rfl⟩ := hp
    have := congrArg List.length h2
    simp at this
  | compound t =>
    simp only [fileParts, Option.some.injEq, Prod.mk.injEq] at hp
    obtain ⟨rfl, h2, h3⟩ := hp
    cases h3
  | deletions t g' =>
    simp only [fileParts, Option.some.injEq, Prod.mk.injEq] at hp
    obtain ⟨rfl, h2, -⟩ := hp
    simp only [IndexFile.valid, Bool.and_eq_true, decide_eq_true_eq] at hf
    rw [numeral_inj36 (by omega) (by omega) (List.cons.inj (List.append_cancel_left h2)).2]
  | norms t g' fld sep =>
    simp only [fileParts, Option.some.injEq, Prod.mk.injEq] at hp
    obtain ⟨rfl, -, h3⟩ := hp
    cases sep <;> cases h3

/-- A file of norms has a name of its own. -/
theorem norms_name {s : Name} {g fld : Nat} {sep : Bool} {f : IndexFile} (hv : (IndexFile.norms s g fld sep).valid = true) (hf : f.valid = true)
    (hs : ∀ g, f ≠ .segments g) (h : f.name = (IndexFile.norms s g fld sep).name) : f = .norms s g fld sep := by
  obtain ⟨a, b, c, hp⟩ := fileParts_some hs
  obtain ⟨rfl, rfl, rfl⟩ := parts_of_name hf hv h hp rfl
  simp only [IndexFile.valid, Bool.and_eq_true, decide_eq_true_eq] at hv
  cases f with
  | segments g => cases hp
  | data t e =>
    simp only [fileParts, Option.some.injEq, Prod.mk.injEq] at hp
    obtain ⟨rfl, h2, rfl⟩ := hp
    have := congrArg List.length h2
    simp at this
  | compound t =>
    simp only [fileParts, Option.some.injEq, Prod.mk.injEq] at hp
    obtain ⟨rfl, h2, h3⟩ := hp
    have := congrArg List.length h2
    simp at this
  | deletions t g' =>
    simp only [fileParts, Option.some.injEq, Prod.mk.injEq] at hp
    obtain ⟨rfl, -, h3⟩ := hp
    cases sep <;> cases h3
  | norms t g' fld' sep' =>
    simp only [fileParts, Option.some.injEq, Prod.mk.injEq] at hp
    obtain ⟨rfl, h2, h3⟩ := hp
    simp only [IndexFile.valid, Bool.and_eq_true, decide_eq_true_eq] at hf
    rw [numeral_inj36 (by omega) (by omega) (List.cons.inj (List.append_cancel_left h2)).2]
    obtain ⟨h4, h5⟩ := List.cons.inj h3
    rw [numeral_inj10 (by omega) (by omega) h5]
    cases sep <;> cases sep' <;> first | rfl | cases h4

/-- The name a segment made at a counter gets. -/
def segNameOf (k : Nat) : Name := 95 :: numeral 36 k

theorem newSegment_eq {k : Nat} (h : k < 2 ^ 64) : newSegment k = .ok (segNameOf k) := by
  unfold newSegment
  rw [u64ToStr36_numeral _ k h (by decide)]
  rfl

theorem segNameOf_inj {a b : Nat} (ha : a < 2 ^ 64) (hb : b < 2 ^ 64) (h : segNameOf a = segNameOf b) : a = b :=
  numeral_inj36 ha hb (List.cons.inj h).2

theorem isSegName_of (k : Nat) (h : k < 2 ^ 64) : isSegName (segNameOf k) = true := by
  obtain ⟨h1, -, -, h4⟩ := numeral36 k h
  simp only [segNameOf, isSegName, Bool.and_eq_true, Bool.not_eq_true', List.isEmpty_eq_false_iff, List.all_eq_true, Bool.or_eq_true, decide_eq_true_eq, UInt8.le_iff_toNat_le]
  exact ⟨h4, fun c hc => h1 c hc⟩

theorem segNameOf_len (k : Nat) (h : k < 2 ^ 64) : (segNameOf k).length ≤ 14 := by
  have := (numeral36 k h).2.2.1
  simp only [segNameOf, List.length_cons]
  omega

/-! ### Names that will not be written again -/

/-- The segment was made before. -/
def Made (c : SIS) (s : Name) : Prop := ∃ k, k < c.counter ∧ s = segNameOf k

/-- Given a commit, no later session that begins with it writes a file of this name (files of
deletions: as long as nothing is undeleted). -/
def Frozen (dels : Bool) (c : SIS) : IndexFile → Prop
  | .segments _ => False
  | .data s _ => Made c s
  | .compound s => Made c s
  | .deletions s g => dels = true ∧ Made c s ∧ ∀ si ∈ c.segs, si.name = s → (g : Int) ≤ si.delGen
  | .norms s g f _ => Made c s ∧ ∀ si ∈ c.segs, si.name = s → (g : Int) ≤ (si.normGens[f]?).getD (-1)

def FrozenN (dels : Bool) (c : SIS) (n : Name) : Prop := ∃ f : IndexFile, f.valid = true ∧ f.name = n ∧ Frozen dels c f

theorem Frozen.made {dels c} {f : IndexFile} (h : Frozen dels c f) : ∃ s stem ext, fileParts f = some (s, stem, ext) ∧ Made c s := by
  cases f with
  | segments g => exact h.elim
  | data s e => exact ⟨_, _, _, rfl, h⟩
  | compound s => exact ⟨_, _, _, rfl, h⟩
  | deletions s g => exact ⟨_, _, _, rfl, h.2.1⟩
  | norms s g f sep => exact ⟨_, _, _, rfl, h.1⟩

theorem Frozen.ne_segments {dels c} {f : IndexFile} (h : Frozen dels c f) : ∀ g, f ≠ .segments g := by
  rintro g rfl; exact h

theorem Frozen.weaken {c} {f : IndexFile} (h : Frozen false c f) : Frozen true c f := by
  cases f with
  | segments g => exact h
  | data s e => exact h
  | compound s => exact h
  | deletions s g => exact absurd h.1 (by decide)
  | norms s g f sep => exact h

theorem FrozenN.head {dels c n} (h : FrozenN dels c n) : n.head? = some 95 := by
  obtain ⟨f, hv, rfl, hf⟩ := h
  obtain ⟨s, stem, ext, hp, -⟩ := hf.made
  exact (file_shape hv hp).2.2.2.2.2

theorem not_frozen_segments {dels c} (g : Nat) (n : Name) (h : segfn g = .ok n) : ¬ FrozenN dels c n := by
  intro hf
  have hh := hf.head
  unfold segfn at h
  obtain ⟨u, -, h⟩ := Res.bind_eq_ok.mp h
  rw [← sprintf_ok h] at hh
  simp [segmentsFile] at hh

theorem not_frozen_gen {dels c} : ¬ FrozenN dels c segmentsFile := by
  intro hf
  have hh := hf.head
  simp [segmentsFile] at hh

theorem splitLast_some {c : Byte} : ∀ {n a b : Name}, splitLast c n = some (a, b) → n = a ++ c :: b := by
  intro n
  induction n with
  | nil => intro a b h; cases h
  | cons x xs ih =>
    intro a b h
    simp only [splitLast] at h
    split at h
    · rename_i a' b' e
      cases h
      rw [ih e]; rfl
    · split at h
      · rename_i e; cases h; rw [e]; rfl
      · cases h

/-- A lock's name is no name of a file of a segment. -/
theorem not_frozen_lock {dels c} (n : Name) (h : isLockName n = true) : ¬ FrozenN dels c n := by
  rintro ⟨f, hv, rfl, hf⟩
  obtain ⟨s, stem, ext, hp, -⟩ := hf.made
  obtain ⟨-, hs, -⟩ := file_shape hv hp
  simp only [isLockName, Bool.and_eq_true, decide_eq_true_eq, beq_iff_eq] at h
  have hn : f.name = f.name.take (f.name.length - 4) ++ 46 :: [108, 99, 107] := by
    have := List.take_append_drop (f.name.length - 4) f.name
    rw [h.2] at this
    exact this.symm
  have h2 := splitLast_append (c := 46) (f.name.take (f.name.length - 4)) (b := [108, 99, 107]) (by decide)
  rw [← hn, hs, Option.some.injEq, Prod.mk.injEq] at h2
  cases f with
  | segments g => cases hp
  | data t e =>
    simp only [fileParts, Option.some.injEq, Prod.mk.injEq] at hp
    obtain ⟨-, -, rfl⟩ := hp
    simp only [IndexFile.valid, Bool.and_eq_true] at hv
    rw [h2.2] at hv
    exact absurd hv.2 (by decide)
  | compound t =>
    simp only [fileParts, Option.some.injEq, Prod.mk.injEq] at hp
    rw [h2.2] at hp; exact absurd hp.2.2 (by decide)
  | deletions t g =>
    simp only [fileParts, Option.some.injEq, Prod.mk.injEq] at hp
    rw [h2.2] at hp; exact absurd hp.2.2 (by decide)
  | norms t g fld sep =>
    simp only [fileParts, Option.some.injEq, Prod.mk.injEq] at hp
    rw [h2.2] at hp
    have := (List.cons.inj hp.2.2).1
    cases sep <;> exact absurd this (by decide)

/-- A file of a segment that was not made before. -/
theorem not_frozen_fresh {dels c} {s e : Name} (hs : isSegName s = true) (he : segExts.contains e = true) (hm : ¬ Made c s) :
    ¬ FrozenN dels c (s ++ 46 :: e) := by
  rintro ⟨f, hv, hn, hf⟩
  obtain ⟨s', stem, ext, hp, hm'⟩ := hf.made
  obtain ⟨-, h1, h2, -⟩ := file_shape hv hp
  have h46 : ∀ e ∈ segExts, (46 : Byte) ∉ e := by decide
  rw [hn, splitLast_append s (h46 e (List.contains_iff_mem.mp he)), Option.some.injEq, Prod.mk.injEq] at h1
  rw [← h1.1, dropGen_seg hs] at h2
  exact hm (h2 ▸ hm')

/-! ### The directory -/

/-- What holds of the directory: names and files correspond, and no output stream is open on a file
that will not be written again. -/
structure DirInv (dels : Bool) (c : SIS) (d : DState) : Prop where
  nd : d.names.Pairwise fun a b => a.1 ≠ b.1 ∧ a.2 ≠ b.2
  ids : ∀ p ∈ d.names, p.2 < d.files.length
  outs : ∀ (h i p : Nat), d.outs[h]? = some (some (i, p)) → i < d.files.length ∧ ∀ q ∈ d.names, q.2 = i → ¬ FrozenN dels c q.1

/-- The file `i` with content `f` will not be written. -/
structure Pin (dels : Bool) (c : SIS) (d : DState) (i : Nat) (f : List Byte) : Prop where
  file : d.files[i]? = some f
  names : ∀ q ∈ d.names, q.2 = i → FrozenN dels c q.1
  outs : ∀ h p : Nat, d.outs[h]? ≠ some (some (i, p))

/-- The calls that are made. -/
def CallOK (dels : Bool) (c : SIS) : DOp → Prop
  | .touch n => ¬ FrozenN dels c n
  | .openOut n => ¬ FrozenN dels c n
  | .rename _ _ => False
  | _ => True

theorem lookup_mem {l : List (Name × Nat)} (hnd : l.Pairwise fun a b => a.1 ≠ b.1 ∧ a.2 ≠ b.2) {n : Name} {i : Nat} :
    lookupName l n = some i ↔ (n, i) ∈ l := by
  refine ⟨RamDir.lookup_some, fun h => ?_⟩
  cases e : lookupName l n with
  | none => exact absurd rfl (RamDir.lookup_none e _ h)
  | some j =>
    have hj := RamDir.lookup_some e
    congr 1
    clear e
    induction l with
    | nil => cases h
    | cons a as ih =>
      rw [List.pairwise_cons] at hnd
      rcases List.mem_cons.mp h with e | h' <;> rcases List.mem_cons.mp hj with e1 | h1'
      · rw [← e] at e1; exact (Prod.mk.inj e1).2
      · subst e; exact absurd rfl (hnd.1 _ h1').1
      · subst e1; exact absurd rfl (hnd.1 _ h').1
      · exact ih hnd.2 h' h1'

theorem pair_of_id {l : List (Name × Nat)} (hnd : l.Pairwise fun a b => a.1 ≠ b.1 ∧ a.2 ≠ b.2) {p q : Name × Nat} (hp : p ∈ l) (hq : q ∈ l)
    (h : p.2 = q.2) : p = q := by
  induction l with
  | nil => cases hp
  | cons a as ih =>
    rw [List.pairwise_cons] at hnd
    rcases List.mem_cons.mp hp with e | h' <;> rcases List.mem_cons.mp hq with e1 | h1'
    · rw [e, e1]
    · subst e; exact absurd h (hnd.1 _ h1').2
    · subst e1; exact absurd h.symm (hnd.1 _ h').2
    · exact ih hnd.2 h' h1'

/-- A file bound to a name that is not written again is not written again. -/
theorem pin_of {dels c d} (hi : DirInv dels c d) {n : Name} {i : Nat} (hl : lookupName d.names n = some i) (hf : FrozenN dels c n) :
    ∃ f, Pin dels c d i f := by
  have hm := RamDir.lookup_some hl
  have hlt := hi.ids _ hm
  refine ⟨d.files[i], List.getElem?_eq_getElem hlt, fun q hq e => ?_, fun h p ho => ?_⟩
  · rw [pair_of_id hi.nd hq hm e]; exact hf
  · exact (hi.outs h i p ho).2 _ hm rfl hf

/-- A new file with a new name. -/
theorem fresh_nd {l : List (Name × Nat)} {n : Name} {k : Nat} (hnd : l.Pairwise fun a b => a.1 ≠ b.1 ∧ a.2 ≠ b.2) (hids : ∀ p ∈ l, p.2 < k)
    (hl : lookupName l n = none) : ((n, k) :: l).Pairwise fun a b => a.1 ≠ b.1 ∧ a.2 ≠ b.2 :=
  List.pairwise_cons.2 ⟨fun q hq => ⟨fun e => RamDir.lookup_none hl q hq e.symm, fun e => by have := hids q hq; have e' : k = q.2 := e; omega⟩, hnd⟩

theorem getElem?_append_one {α : Type} {l : List α} {x y : α} {h : Nat} (e : (l ++ [x])[h]? = some y) : l[h]? = some y ∨ (h = l.length ∧ y = x) := by
  rw [List.getElem?_append] at e
  split at e
  · exact Or.inl e
  · rename_i hn
    right
    have : h - l.length = 0 := by
      have := (List.getElem?_eq_some_iff.1 e).1
      simp at this; omega
    rw [this] at e
    simp at e
    exact ⟨by omega, e.symm⟩

theorem filter_inv {dels c} {d : DState} (hi : DirInv dels c d) (p : Name × Nat → Bool) : DirInv dels c { d with names := d.names.filter p } :=
  ⟨List.Pairwise.sublist List.filter_sublist hi.nd, fun q hq => hi.ids q (List.mem_filter.mp hq).1,
   fun h i k ho => ⟨(hi.outs h i k ho).1, fun q hq => (hi.outs h i k ho).2 q (List.mem_filter.mp hq).1⟩⟩

theorem filter_pin {dels c} {d : DState} {i f} (hi : Pin dels c d i f) (p : Name × Nat → Bool) : Pin dels c { d with names := d.names.filter p } i f :=
  ⟨hi.file, fun q hq => hi.names q (List.mem_filter.mp hq).1, hi.outs⟩

theorem dstep_inv {dels c} {d : DState} {op : DOp} {o d'} (hi : DirInv dels c d) (hc : CallOK dels c op) (hs : dstep d op = some (o, d')) :
    DirInv dels c d' := by
  have hlt : ∀ p ∈ d.names, p.2 < (d.files ++ [[]]).length := fun p hp => by
    have := hi.ids p hp
    simp only [List.length_append, List.length_cons, List.length_nil]; omega
  cases op with
  | touch n =>
    simp only [dstep] at hs
    split at hs
    · cases hs; exact hi
    · rename_i hl
      cases hs
      refine ⟨fresh_nd hi.nd hi.ids hl, fun q hq => ?_, fun h i p ho => ⟨?_, fun q hq e => ?_⟩⟩
      · rcases List.mem_cons.mp hq with rfl | hq
        · simp
        · exact hlt q hq
      · have := (hi.outs h i p ho).1
        simp only [List.length_append, List.length_cons, List.length_nil]; omega
      · rcases List.mem_cons.mp hq with rfl | hq
        · exact hc
        · exact (hi.outs h i p ho).2 q hq e
  | exist n => cases hs; exact hi
  | remove n => cases hs; exact filter_inv hi _
  | rename a b => exact hc.elim
  | count => cases hs; exact hi
  | length n =>
    simp only [dstep] at hs
    split at hs
    · cases hs; exact hi
    · obtain ⟨f, -, e⟩ := Option.map_eq_some_iff.1 hs; cases e; exact hi
  | openOut n =>
    simp only [dstep] at hs
    split at hs
    · rename_i j hl
      cases hs
      refine ⟨hi.nd, hi.ids, fun h i p ho => ?_⟩
      rcases getElem?_append_one ho with ho | ⟨-, e⟩
      · exact hi.outs h i p ho
      · cases e
        have hm := RamDir.lookup_some hl
        exact ⟨hi.ids _ hm, fun q hq e => by rw [pair_of_id hi.nd hq hm e]; exact hc⟩
    · rename_i hl
      cases hs
      refine ⟨fresh_nd hi.nd hi.ids hl, fun q hq => ?_, fun h i p ho => ?_⟩
      · rcases List.mem_cons.mp hq with rfl | hq
        · simp
        · exact hlt q hq
      · rcases getElem?_append_one ho with ho | ⟨-, e⟩
        · refine ⟨?_, fun q hq e => ?_⟩
          · have := (hi.outs h i p ho).1
            simp only [List.length_append, List.length_cons, List.length_nil]; omega
          · rcases List.mem_cons.mp hq with rfl | hq
            · exact hc
            · exact (hi.outs h i p ho).2 q hq e
        · cases e
          refine ⟨by simp, fun q hq e => ?_⟩
          rcases List.mem_cons.mp hq with rfl | hq
          · exact hc
          · have := hi.ids q hq; omega
  | write h bs =>
    simp only [dstep] at hs
    split at hs
    · rename_i i p ho
      obtain ⟨f, -, e⟩ := Option.map_eq_some_iff.1 hs
      cases e
      refine ⟨hi.nd, fun q hq => by simpa using hi.ids q hq, fun h' i' p' ho' => ?_⟩
      simp only [List.length_set]
      rw [List.getElem?_set] at ho'
      split at ho'
      · rename_i e; subst e
        split at ho'
        · cases ho'; exact hi.outs h i p ho
        · cases ho'
      · exact hi.outs h' i' p' ho'
    · cases hs
  | closeOut h =>
    simp only [dstep] at hs
    split at hs
    · cases hs
      refine ⟨hi.nd, hi.ids, fun h' i' p' ho' => ?_⟩
      rw [List.getElem?_set] at ho'
      split at ho'
      · split at ho' <;> cases ho'
      · exact hi.outs h' i' p' ho'
    · cases hs
  | openIn n =>
    simp only [dstep] at hs
    split at hs <;> (cases hs; exact ⟨hi.nd, hi.ids, hi.outs⟩)
  | read h pos len =>
    simp only [dstep] at hs
    repeat' split at hs
    all_goals first | cases hs; exact hi | cases hs
  | closeIn h =>
    simp only [dstep] at hs
    split at hs
    · cases hs; exact ⟨hi.nd, hi.ids, hi.outs⟩
    · cases hs
  | clear => cases hs; exact filter_inv hi _
  | clearLocks => cases hs; exact filter_inv hi _
  | clearAll =>
    cases hs
    exact ⟨List.Pairwise.nil, fun q hq => by simp at hq, fun h i p ho => ⟨(hi.outs h i p ho).1, fun q hq => by simp at hq⟩⟩

theorem dstep_pin {dels c} {d : DState} {op : DOp} {o d' i f} (hi : DirInv dels c d) (hp : Pin dels c d i f) (hc : CallOK dels c op)
    (hs : dstep d op = some (o, d')) : Pin dels c d' i f := by
  have hil := (List.getElem?_eq_some_iff.1 hp.file).1
  have hfile : (d.files ++ [[]])[i]? = some f := by rw [List.getElem?_append_left hil]; exact hp.file
  cases op with
  | touch n =>
    simp only [dstep] at hs
    split at hs
    · cases hs; exact hp
    · cases hs
      refine ⟨hfile, fun q hq e => ?_, hp.outs⟩
      rcases List.mem_cons.mp hq with rfl | hq
      · exact absurd e (by simp only; omega)
      · exact hp.names q hq e
  | exist n => cases hs; exact hp
  | remove n => cases hs; exact filter_pin hp _
  | rename a b => exact hc.elim
  | count => cases hs; exact hp
  | length n =>
    simp only [dstep] at hs
    split at hs
    · cases hs; exact hp
    · obtain ⟨f, -, e⟩ := Option.map_eq_some_iff.1 hs; cases e; exact hp
  | openOut n =>
    simp only [dstep] at hs
    split at hs
    · rename_i j hl
      cases hs
      refine ⟨hp.file, hp.names, fun h p ho => ?_⟩
      rcases getElem?_append_one ho with ho | ⟨-, e⟩
      · exact hp.outs h p ho
      · cases e
        exact hc (hp.names _ (RamDir.lookup_some hl) rfl)
    · cases hs
      refine ⟨hfile, fun q hq e => ?_, fun h p ho => ?_⟩
      · rcases List.mem_cons.mp hq with rfl | hq
        · exact absurd e (by simp only; omega)
        · exact hp.names q hq e
      · rcases getElem?_append_one ho with ho | ⟨-, e⟩
        · exact hp.outs h p ho
        · cases e; omega
  | write h bs =>
    simp only [dstep] at hs
    split at hs
    · rename_i j p ho
      obtain ⟨f', -, e⟩ := Option.map_eq_some_iff.1 hs
      cases e
      have hne : j ≠ i := fun e => hp.outs h p (e ▸ ho)
      refine ⟨?_, hp.names, fun h' p' ho' => ?_⟩
      · rw [List.getElem?_set_ne hne]; exact hp.file
      · rw [List.getElem?_set] at ho'
        split at ho'
        · split at ho'
          · cases ho'; exact hne rfl
          · cases ho'
        · exact hp.outs h' p' ho'
    · cases hs
  | closeOut h =>
    simp only [dstep] at hs
    split at hs
    · cases hs
      refine ⟨hp.file, hp.names, fun h' p' ho' => ?_⟩
      rw [List.getElem?_set] at ho'
      split at ho'
      · split at ho' <;> cases ho'
      · exact hp.outs h' p' ho'
    · cases hs
  | openIn n =>
    simp only [dstep] at hs
    split at hs <;> (cases hs; exact ⟨hp.file, hp.names, hp.outs⟩)
  | read h pos len =>
    simp only [dstep] at hs
    repeat' split at hs
    all_goals first | cases hs; exact hp | cases hs
  | closeIn h =>
    simp only [dstep] at hs
    split at hs
    · cases hs; exact ⟨hp.file, hp.names, hp.outs⟩
    · cases hs
  | clear => cases hs; exact filter_pin hp _
  | clearLocks => cases hs; exact filter_pin hp _
  | clearAll => cases hs; exact ⟨hp.file, fun q hq => by simp at hq, hp.outs⟩

theorem lookup_filter {l : List (Name × Nat)} (p : Name × Nat → Bool) (hnd : l.Pairwise fun a b => a.1 ≠ b.1 ∧ a.2 ≠ b.2) (n : Name) :
    lookupName (l.filter p) n = lookupName l n ∨ lookupName (l.filter p) n = none := by
  cases e : lookupName (l.filter p) n with
  | none => exact Or.inr rfl
  | some i => exact Or.inl ((lookup_mem hnd).2 (List.mem_filter.mp (RamDir.lookup_some e)).1).symm

/-- A name that is not written again keeps its file, or is removed. -/
theorem dstep_lookup {dels c} {d : DState} {op : DOp} {o d'} (hi : DirInv dels c d) (hc : CallOK dels c op) (hs : dstep d op = some (o, d'))
    {n : Name} (hn : FrozenN dels c n) : lookupName d'.names n = lookupName d.names n ∨ lookupName d'.names n = none := by
  have hcons : ∀ m k, ¬ FrozenN dels c m → lookupName ((m, k) :: d.names) n = lookupName d.names n := by
    intro m k hm
    have hne : m ≠ n := fun e => hm (e ▸ hn)
    simp [lookupName, hne]
  cases op with
  | touch m =>
    simp only [dstep] at hs
    split at hs
    · cases hs; exact Or.inl rfl
    · cases hs; exact Or.inl (hcons _ _ hc)
  | exist m => cases hs; exact Or.inl rfl
  | remove m => cases hs; exact lookup_filter _ hi.nd n
  | rename a b => exact hc.elim
  | count => cases hs; exact Or.inl rfl
  | length m =>
    simp only [dstep] at hs
    split at hs
    · cases hs; exact Or.inl rfl
    · obtain ⟨f, -, e⟩ := Option.map_eq_some_iff.1 hs; cases e; exact Or.inl rfl
  | openOut m =>
    simp only [dstep] at hs
    split at hs
    · cases hs; exact Or.inl rfl
    · cases hs; exact Or.inl (hcons _ _ hc)
  | write h bs =>
    simp only [dstep] at hs
    split at hs
    · obtain ⟨f', -, e⟩ := Option.map_eq_some_iff.1 hs
      cases e; exact Or.inl rfl
    · cases hs
  | closeOut h =>
    simp only [dstep] at hs
    split at hs <;> cases hs
    exact Or.inl rfl
  | openIn m =>
    simp only [dstep] at hs
    split at hs <;> (cases hs; exact Or.inl rfl)
  | read h pos len =>
    simp only [dstep] at hs
    repeat' split at hs
    all_goals first | cases hs; exact Or.inl rfl | cases hs
  | closeIn h =>
    simp only [dstep] at hs
    split at hs <;> cases hs
    exact Or.inl rfl
  | clear => cases hs; exact lookup_filter _ hi.nd n
  | clearLocks => cases hs; exact lookup_filter _ hi.nd n
  | clearAll => cases hs; exact Or.inr rfl

theorem drun_inv {dels c} : ∀ {ops : List DOp} {d : DState} {o d'}, DirInv dels c d → (∀ op ∈ ops, CallOK dels c op) → drun d ops = some (o, d') →
    DirInv dels c d' ∧ (∀ i f, Pin dels c d i f → Pin dels c d' i f) ∧
    ∀ n, FrozenN dels c n → lookupName d'.names n = lookupName d.names n ∨ lookupName d'.names n = none := by
  intro ops
  induction ops with
  | nil => intro d o d' hi _ h; cases h; exact ⟨hi, fun i f hp => hp, fun n _ => Or.inl rfl⟩
  | cons op ops ih =>
    intro d o d' hi hc h
    simp only [drun, Option.bind_eq_some_iff, Option.map_eq_some_iff] at h
    obtain ⟨⟨o1, d1⟩, h1, ⟨o2, d2⟩, h2, e⟩ := h
    cases e
    have hc1 := hc op (by simp)
    obtain ⟨i1, i2, i3⟩ := ih (dstep_inv hi hc1 h1) (fun op ho => hc op (by simp [ho])) h2
    refine ⟨i1, fun i f hp => i2 i f (dstep_pin hi hp hc1 h1), fun n hn => ?_⟩
    rcases i3 n hn with e | e
    · rw [e]; exact dstep_lookup hi hc1 h1 hn
    · exact Or.inr e

end Ferret.Snap
