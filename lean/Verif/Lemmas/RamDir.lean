import Verif.Lemmas.HashSet
import Verif.Model.RamDir

/-! The in-memory directory refines the directory of Spec/Dir. -/

namespace Ferret.RamDir
open Ferret Ferret.Spec
open Ferret.Hash (Fns Tbl Entry Rel Laws ent entries)

theorem strLaws : Laws strFns where
  refl a := by simp [strFns]
  symm a b h := by simp only [strFns, beq_iff_eq] at *; exact h.symm
  trans a b c h1 h2 := by simp only [strFns, beq_iff_eq] at *; exact h1.trans h2
  hash a b h := by simp only [strFns, beq_iff_eq] at *; rw [h]
  same a b h := by simp [strFns] at h
  ptr h := by simp [strFns] at h

/-- How many references a file should have. -/
def refs (s : DState) (i : Nat) : Nat :=
  s.names.countP (fun p => p.2 == i) + s.outs.countP (fun o => o.map (·.1) == some i) + s.ins.countP (fun o => o == some i)

/-- The heap holds the files, with `R` references each; those without references are freed. -/
structure HOK (heap : List (Option RF)) (files : List (List Byte)) (R : Nat → Nat) : Prop where
  len : heap.length = files.length
  cell : ∀ (i : Nat) (f : List Byte), files[i]? = some f → 0 < R i → ∃ nm, heap[i]? = some (some ⟨nm, f, R i⟩)
  gone : ∀ i, i < files.length → R i = 0 → heap[i]? = some none

structure DRel (d : Dir) (s : DState) : Prop where
  ht : Rel strFns d.ht s.names
  heap : HOK d.heap s.files (refs s)
  outs : d.outs = s.outs
  ins : d.ins = s.ins
  ids : (s.names.map (·.2)).Nodup
  nlt : ∀ p ∈ s.names, p.2 < s.files.length
  olt : ∀ (i p : Nat), some (i, p) ∈ s.outs → i < s.files.length
  ilt : ∀ i : Nat, some i ∈ s.ins → i < s.files.length
  nm : ∀ p ∈ s.names, ∀ rf : RF, d.heap[p.2]? = some (some rf) → rf.name = p.1

theorem HOK.congr {heap files} {R R' : Nat → Nat} (h : HOK heap files R) (e : ∀ i, i < files.length → R i = R' i) : HOK heap files R' := by
  refine ⟨h.len, ?_, ?_⟩
  · intro i f hf hp
    have hi := (List.getElem?_eq_some_iff.1 hf).1
    rw [← e i hi] at hp ⊢
    exact h.cell i f hf hp
  · intro i hi hp
    rw [← e i hi] at hp
    exact h.gone i hi hp

/-- The counts with the one at `i` replaced. -/
def upd (R : Nat → Nat) (i v : Nat) : Nat → Nat := fun j => if j = i then v else R j

theorem getRF_ok {heap : List (Option RF)} {i : Nat} {rf : RF} (h : heap[i]? = some (some rf)) : getRF heap i = .ok rf := by
  simp only [getRF, h]

/-- The names in `h'` are those of `h`. -/
def SameNames (h h' : List (Option RF)) : Prop :=
  ∀ (j : Nat) (rf : RF), h'[j]? = some (some rf) → ∃ rf0 : RF, h[j]? = some (some rf0) ∧ rf.name = rf0.name

theorem SameNames.refl (h : List (Option RF)) : SameNames h h := fun _ rf e => ⟨rf, e, rfl⟩

theorem SameNames.trans {a b c : List (Option RF)} (h1 : SameNames a b) (h2 : SameNames b c) : SameNames a c := by
  intro j rf e
  obtain ⟨r1, e1, n1⟩ := h2 j rf e
  obtain ⟨r2, e2, n2⟩ := h1 j r1 e1
  exact ⟨r2, e2, n1.trans n2⟩

theorem sameNames_set {h : List (Option RF)} {i : Nat} {rf : RF} (hi : h[i]? = some (some rf)) {x : Option RF}
    (hx : ∀ r, x = some r → r.name = rf.name) : SameNames h (h.set i x) := by
  intro j r e
  rw [List.getElem?_set] at e
  split at e
  · rename_i hij; subst hij
    split at e
    · exact ⟨rf, hi, hx r (Option.some.inj e)⟩
    · cases e
  · exact ⟨r, e, rfl⟩

theorem getElem?_set' {α : Type} {l : List α} {i j : Nat} {x : α} (hi : i < l.length) :
    (l.set i x)[j]? = if j = i then some x else l[j]? := by
  rw [List.getElem?_set]
  by_cases h : i = j
  · subst h; simp [hi]
  · rw [if_neg h, if_neg (fun e => h e.symm)]

theorem HOK.setRef {heap files R} (h : HOK heap files R) {i : Nat} {f nm} (hf : files[i]? = some f) (v : Nat) :
    0 < v → HOK (heap.set i (some ⟨nm, f, v⟩)) files (upd R i v) := by
  intro hv
  have hi : i < heap.length := by rw [h.len]; exact (List.getElem?_eq_some_iff.1 hf).1
  refine ⟨by rw [List.length_set, h.len], ?_, ?_⟩
  · intro j g hg hp
    rw [getElem?_set' hi]
    by_cases hj : j = i
    · subst hj; rw [hf] at hg; cases hg
      exact ⟨nm, by simp [upd]⟩
    · rw [if_neg hj]
      simp only [upd, if_neg hj] at hp ⊢
      exact h.cell j g hg hp
  · intro j hj0 hp
    rw [getElem?_set' hi]
    by_cases hj : j = i
    · subst hj; simp [upd] at hp; omega
    · rw [if_neg hj]
      simp only [upd, if_neg hj] at hp ⊢
      exact h.gone j hj0 hp

theorem HOK.free {heap files R} (h : HOK heap files R) {i : Nat} (hi : i < files.length) :
    HOK (heap.set i none) files (upd R i 0) := by
  have hi' : i < heap.length := by rw [h.len]; exact hi
  refine ⟨by rw [List.length_set, h.len], ?_, ?_⟩
  · intro j g hg hp
    rw [getElem?_set' hi']
    by_cases hj : j = i
    · subst hj; simp [upd] at hp
    · rw [if_neg hj]
      simp only [upd, if_neg hj] at hp ⊢
      exact h.cell j g hg hp
  · intro j hj0 hp
    rw [getElem?_set' hi']
    by_cases hj : j = i
    · rw [if_pos hj]
    · rw [if_neg hj]
      simp only [upd, if_neg hj] at hp ⊢
      exact h.gone j hj0 hp

/-- `DEREF` and `rf_close`: one reference less. -/
theorem release {heap files R} (h : HOK heap files R) {i : Nat} (hi : i < files.length) (hp : 0 < R i) :
    ∃ h1 h2, deref heap i = .ok h1 ∧ rfClose h1 i = .ok h2 ∧ HOK h2 files (upd R i (R i - 1)) ∧ SameNames heap h2 := by
  have hf : files[i]? = some files[i] := List.getElem?_eq_getElem hi
  obtain ⟨nm, hc⟩ := h.cell i _ hf hp
  have hi' : i < heap.length := by rw [h.len]; exact hi
  have e1 : deref heap i = .ok (heap.set i (some ⟨nm, files[i], R i - 1⟩)) := by
    simp only [deref, getRF_ok hc, Res.ok_bind, if_neg (Nat.ne_of_gt hp)]
  have g1 : (heap.set i (some ⟨nm, files[i], R i - 1⟩))[i]? = some (some ⟨nm, files[i], R i - 1⟩) := List.getElem?_set_self hi'
  by_cases hz : 0 < R i - 1
  · refine ⟨_, _, e1, ?_, h.setRef (nm := nm) hf _ hz, ?_⟩
    · simp only [rfClose, getRF_ok g1, Res.ok_bind, gt_iff_lt, if_pos hz]
    · exact sameNames_set hc (fun r e => by cases e; rfl)
  · refine ⟨_, _, e1, by simp only [rfClose, getRF_ok g1, Res.ok_bind, gt_iff_lt, if_neg hz] <;> rfl, ?_, ?_⟩
    · rw [List.set_set, show R i - 1 = 0 by omega]; exact h.free hi
    · rw [List.set_set]; exact sameNames_set hc (fun r e => by cases e)

/-- `REF`. -/
theorem addRef_spec {heap files R} (h : HOK heap files R) {i : Nat} (hi : i < files.length) (hp : 0 < R i) :
    ∃ h1, addRef heap i = .ok h1 ∧ HOK h1 files (upd R i (R i + 1)) ∧ SameNames heap h1 := by
  have hf : files[i]? = some files[i] := List.getElem?_eq_getElem hi
  obtain ⟨nm, hc⟩ := h.cell i _ hf hp
  refine ⟨_, by simp only [addRef, getRF_ok hc, Res.ok_bind] <;> rfl, h.setRef (nm := nm) hf _ (by omega), ?_⟩
  exact sameNames_set hc (fun r e => by cases e; rfl)

theorem DRel.cell {d s} (h : DRel d s) {i : Nat} (hi : i < s.files.length) (hp : 0 < refs s i) :
    ∃ nm, d.heap[i]? = some (some ⟨nm, s.files[i], refs s i⟩) :=
  h.heap.cell i _ (List.getElem?_eq_getElem hi) hp

/-! Lookups of names. -/

theorem lookup_mfind (l : List (Name × Nat)) (n : Name) : lookupName l n = (mfind strFns.eq l n).map (·.2) := rfl

theorem unbind_mdel (l : List (Name × Nat)) (n : Name) : unbind l n = mdel strFns.eq l n := rfl

theorem lookup_none {l : List (Name × Nat)} {n : Name} (h : lookupName l n = none) : ∀ p ∈ l, p.1 ≠ n := by
  unfold lookupName at h
  rw [Option.map_eq_none_iff] at h
  intro p hp he
  have := List.find?_eq_none.1 h p hp
  simp [he] at this

theorem lookup_some {l : List (Name × Nat)} {n : Name} {i} (h : lookupName l n = some i) : (n, i) ∈ l := by
  unfold lookupName at h
  rw [Option.map_eq_some_iff] at h
  obtain ⟨⟨a, b⟩, hp, rfl⟩ := h
  have := List.find?_some hp
  simp only [beq_iff_eq] at this
  subst this
  exact List.mem_of_find?_eq_some hp

theorem unbind_absent {l : List (Name × Nat)} {n : Name} (h : lookupName l n = none) : unbind l n = l := by
  refine List.filter_eq_self.2 (fun p hp => ?_)
  have := lookup_none h p hp
  simpa using this

theorem DRel.perm {d s} (h : DRel d s) {n i} (hl : lookupName s.names n = some i) : s.names.Perm ((n, i) :: unbind s.names n) := by
  have hm := lookup_some hl
  obtain ⟨A, B, e⟩ := List.append_of_mem hm
  have := Hash.mfind_present strLaws h.ht.dist (by rw [e]; exact List.perm_middle) (k := n) (by simp [strFns])
  exact (by rw [e]; exact List.perm_middle : s.names.Perm ((n, i) :: (A ++ B))).trans (List.Perm.cons _ this.2.symm)

theorem refs_unbind {d s} (h : DRel d s) {n i} (hl : lookupName s.names n = some i) (j : Nat) :
    refs s j = refs { s with names := unbind s.names n } j + if j = i then 1 else 0 := by
  simp only [refs, (h.perm hl).countP_eq, List.countP_cons]
  by_cases hj : j = i
  · subst hj; simp; omega
  · rw [if_neg hj]
    have : (i == j) = false := by simpa using fun e => hj e.symm
    simp [this]

theorem refs_pos_name {s : DState} {p} (hp : p ∈ s.names) : 0 < refs s p.2 := by
  have : 0 < s.names.countP (fun q => q.2 == p.2) := List.countP_pos_iff.2 ⟨p, hp, by simp⟩
  simp only [refs]; omega

theorem refs_pos_out {s : DState} {i p : Nat} (hp : some (i, p) ∈ s.outs) : 0 < refs s i := by
  have : 0 < s.outs.countP (fun o => o.map (·.1) == some i) := List.countP_pos_iff.2 ⟨_, hp, by simp⟩
  simp only [refs]; omega

theorem refs_pos_in {s : DState} {i : Nat} (hp : some i ∈ s.ins) : 0 < refs s i := by
  have : 0 < s.ins.countP (fun o => o == some i) := List.countP_pos_iff.2 ⟨_, hp, by simp⟩
  simp only [refs]; omega

theorem DRel.ht' {d s} (h : DRel d s) {t} (ht : Rel strFns t s.names) : DRel { d with ht := t } s :=
  ⟨ht, h.heap, h.outs, h.ins, h.ids, h.nlt, h.olt, h.ilt, h.nm⟩

/-- A fresh file under a new name. -/
theorem create_spec {d s} (h : DRel d s) {n} (hl : lookupName s.names n = none) :
    ∃ d', create d n = .ok d' ∧ DRel d' { s with files := s.files ++ [[]], names := (n, s.files.length) :: s.names } ∧
      d'.heap.length = d.heap.length + 1 := by
  obtain ⟨st, t, h1, h2⟩ := HashSet.hset_spec strLaws h.ht n d.heap.length
  rw [← unbind_mdel, unbind_absent hl, h.heap.len] at h1
  refine ⟨_, by simp only [create, h2, Res.ok_bind] <;> rfl, ?_, by simp⟩
  have hlast : refs { s with files := s.files ++ [[]], names := (n, s.files.length) :: s.names } s.files.length = 1 := by
    simp only [refs, List.countP_cons]
    rw [List.countP_eq_zero.2, List.countP_eq_zero.2, List.countP_eq_zero.2]
    · simp
    · intro a ha hc; simp only [beq_iff_eq] at hc; subst hc; have := h.ilt _ ha; omega
    · intro a ha hc
      simp only [beq_iff_eq, Option.map_eq_some_iff] at hc
      obtain ⟨⟨x, y⟩, e1, e2⟩ := hc
      subst e1
      have := h.olt _ _ ha
      simp only at e2; omega
    · intro a ha hc; simp only [beq_iff_eq] at hc; have := h.nlt _ ha; omega
  have hold : ∀ i, i < s.files.length → refs { s with files := s.files ++ [[]], names := (n, s.files.length) :: s.names } i = refs s i := by
    intro i hi
    simp only [refs, List.countP_cons]
    have : (s.files.length == i) = false := by simp; omega
    simp [this]
  refine ⟨h1, ⟨by simp [h.heap.len], ?_, ?_⟩, h.outs, h.ins, ?_, ?_, ?_, ?_, ?_⟩
  · intro i f hf hp
    by_cases hi : i < s.files.length
    · rw [hold i hi] at hp ⊢
      rw [List.getElem?_append_left hi] at hf
      obtain ⟨nm, hc⟩ := h.heap.cell i f hf hp
      exact ⟨nm, by rw [List.getElem?_append_left (by rw [h.heap.len]; exact hi)]; exact hc⟩
    · have : i = s.files.length := by
        have := (List.getElem?_eq_some_iff.1 hf).1
        simp at this; omega
      subst this
      rw [hlast]
      simp only [List.getElem?_concat_length, Option.some.injEq] at hf
      subst hf
      exact ⟨n, by rw [← h.heap.len]; simp⟩
  · intro i hi hp
    simp only [List.length_append, List.length_cons, List.length_nil] at hi
    by_cases hi' : i < s.files.length
    · rw [hold i hi'] at hp
      rw [List.getElem?_append_left (by rw [h.heap.len]; exact hi')]
      exact h.heap.gone i hi' hp
    · have : i = s.files.length := by omega
      subst this
      omega
  · simp only [List.map_cons, List.nodup_cons]
    refine ⟨?_, h.ids⟩
    intro hm
    obtain ⟨p, hp, e⟩ := List.mem_map.1 hm
    have := h.nlt p hp; omega
  · intro p hp
    simp only [List.length_append, List.length_cons, List.length_nil]
    rcases List.mem_cons.1 hp with rfl | hp
    · simp
    · have := h.nlt p hp; omega
  · intro i p hp
    have := h.olt i p hp
    simp only [List.length_append, List.length_cons, List.length_nil]; omega
  · intro i hp
    have := h.ilt i hp
    simp only [List.length_append, List.length_cons, List.length_nil]; omega
  · intro p hp rf hrf
    rcases List.mem_cons.1 hp with rfl | hp
    · simp only [← h.heap.len, List.getElem?_concat_length, Option.some.injEq] at hrf
      rw [← hrf]
    · have := h.nlt p hp
      simp only at hrf
      rw [List.getElem?_append_left (by rw [h.heap.len]; exact this)] at hrf
      exact h.nm p hp rf hrf

theorem get_spec {d s} (h : DRel d s) (n : Name) :
    ∃ t, Hash.get strFns d.ht n = .ok (lookupName s.names n, t) ∧ DRel { d with ht := t } s := by
  obtain ⟨t, h1, h2⟩ := HashSet.get_spec strLaws h.ht n
  exact ⟨t, h2, h.ht' h1⟩

theorem touch_spec {d s} (h : DRel d s) (n : Name) {o s'} (hs : dstep s (.touch n) = some (o, s')) :
    ∃ d', doOp d (.touch n) = .ok (o, d') ∧ DRel d' s' := by
  obtain ⟨t, h1, h2⟩ := get_spec h n
  simp only [dstep] at hs
  simp only [doOp, touch, h1, Res.ok_bind]
  cases hl : lookupName s.names n with
  | none =>
    rw [hl] at hs; cases hs
    obtain ⟨d', g1, g2, _⟩ := create_spec h2 hl
    exact ⟨d', by simp only [g1, Res.ok_bind], g2⟩
  | some i => rw [hl] at hs; cases hs; exact ⟨_, rfl, h2⟩

theorem exist_spec {d s} (h : DRel d s) (n : Name) {o s'} (hs : dstep s (.exist n) = some (o, s')) :
    ∃ d', doOp d (.exist n) = .ok (o, d') ∧ DRel d' s' := by
  obtain ⟨t, h1, h2⟩ := get_spec h n
  simp only [dstep, Option.some.injEq, Prod.mk.injEq] at hs
  obtain ⟨rfl, rfl⟩ := hs
  exact ⟨_, by simp only [doOp, exist, h1, Res.ok_bind], h2⟩

theorem count_spec {d s} (h : DRel d s) {o s'} (hs : dstep s .count = some (o, s')) :
    ∃ d', doOp d .count = .ok (o, d') ∧ DRel d' s' := by
  simp only [dstep, Option.some.injEq, Prod.mk.injEq] at hs
  obtain ⟨rfl, rfl⟩ := hs
  exact ⟨_, by simp only [doOp, h.ht.size, h.ht.perm.length_eq], h⟩

theorem length_spec {d s} (h : DRel d s) (n : Name) {o s'} (hs : dstep s (.length n) = some (o, s')) :
    ∃ d', doOp d (.length n) = .ok (o, d') ∧ DRel d' s' := by
  obtain ⟨t, h1, h2⟩ := get_spec h n
  simp only [dstep] at hs
  simp only [doOp, length, h1, Res.ok_bind]
  cases hl : lookupName s.names n with
  | none => rw [hl] at hs; cases hs; exact ⟨_, rfl, h2⟩
  | some i =>
    rw [hl] at hs
    have hm := lookup_some hl
    have hi := h.nlt _ hm
    obtain ⟨nm, hc⟩ := h.cell hi (refs_pos_name hm)
    simp only [List.getElem?_eq_getElem hi, Option.map_some, Option.some.injEq, Prod.mk.injEq] at hs
    obtain ⟨rfl, rfl⟩ := hs
    exact ⟨_, by simp only [getRF_ok hc, Res.ok_bind] <;> rfl, h2⟩

theorem rem_names {d s} (h : DRel d s) (n : Name) {t} (ht : Rel strFns t (unbind s.names n)) {heap}
    (hh : HOK heap s.files (refs { s with names := unbind s.names n })) (hn : SameNames d.heap heap) :
    DRel { d with heap := heap, ht := t } { s with names := unbind s.names n } := by
  have hsub : ∀ p, p ∈ unbind s.names n → p ∈ s.names := fun p hp => (List.mem_filter.1 hp).1
  refine ⟨ht, hh, h.outs, h.ins, ?_, fun p hp => h.nlt p (hsub p hp), h.olt, h.ilt, ?_⟩
  · exact h.ids.sublist (List.Sublist.map _ List.filter_sublist)
  · intro p hp rf hrf
    obtain ⟨rf0, e1, e2⟩ := hn _ _ hrf
    rw [e2]; exact h.nm p (hsub p hp) rf0 e1

theorem remove_spec {d s} (h : DRel d s) (n : Name) {o s'} (hs : dstep s (.remove n) = some (o, s')) :
    ∃ d', doOp d (.remove n) = .ok (o, d') ∧ DRel d' s' := by
  obtain ⟨t, h1, h2⟩ := Hash.rem_spec strLaws h.ht n
  rw [← lookup_mfind] at h1
  rw [← unbind_mdel] at h2
  simp only [dstep, Option.some.injEq, Prod.mk.injEq] at hs
  obtain ⟨rfl, rfl⟩ := hs
  simp only [doOp, remove, h1, Res.ok_bind]
  cases hl : lookupName s.names n with
  | none =>
    refine ⟨_, rfl, ?_⟩
    refine rem_names h n h2 ?_ (SameNames.refl _)
    rw [unbind_absent hl]; exact h.heap
  | some i =>
    have hm := lookup_some hl
    obtain ⟨x1, x2, g1, g2, g3, g4⟩ := release h.heap (h.nlt _ hm) (refs_pos_name hm)
    refine ⟨_, by simp only [g1, g2, Res.ok_bind] <;> rfl, rem_names h n h2 (g3.congr ?_) g4⟩
    intro j _
    have := refs_unbind h hl j
    have := refs_unbind h hl i
    simp only [upd]
    split <;> simp_all


theorem countP_set' {α : Type} (p : α → Bool) {l : List α} {i : Nat} {a : α} (h : l[i]? = some a) (b : α) :
    (l.set i b).countP p + (if p a then 1 else 0) = l.countP p + (if p b then 1 else 0) := by
  obtain ⟨A, B, h1, h2⟩ := Hash.set_split h b
  rw [h2, h1]
  simp only [List.countP_append, List.countP_cons]
  omega

theorem mem_set_none {α : Type} {l : List (Option α)} {h : Nat} {x : α} (hm : some x ∈ l.set h none) : some x ∈ l := by
  rcases List.mem_or_eq_of_mem_set hm with h | h
  · exact h
  · cases h

theorem closeOut_spec {d s} (h : DRel d s) (k : Nat) {o s'} (hs : dstep s (.closeOut k) = some (o, s')) :
    ∃ d', doOp d (.closeOut k) = .ok (o, d') ∧ DRel d' s' := by
  simp only [dstep] at hs
  simp only [doOp, closeOut, h.outs]
  split at hs
  · rename_i x hx
    obtain ⟨i, p⟩ := x
    cases hs
    have hm := List.mem_of_getElem? hx
    obtain ⟨x1, x2, g1, g2, g3, g4⟩ := release h.heap (h.olt _ _ hm) (refs_pos_out hm)
    simp only [hx, g1, g2, Res.ok_bind]
    refine ⟨_, rfl, h.ht, g3.congr ?_, rfl, h.ins, h.ids, h.nlt,
      fun i p hp => h.olt i p (mem_set_none hp), h.ilt, ?_⟩
    · intro j _
      have hc := countP_set' (fun o : Option (Nat × Nat) => o.map (·.1) == some j) hx none
      simp only [Option.map_some, Option.map_none] at hc
      have e1 : ((none : Option Nat) == some j) = false := rfl
      simp only [e1] at hc
      simp only [upd, refs]
      by_cases hj : j = i
      · subst hj; simp at hc ⊢; omega
      · have : (some i == some j) = false := by simpa using fun e => hj e.symm
        simp only [this] at hc
        simp [hj] at hc ⊢; omega
    · intro p hp rf hrf
      obtain ⟨rf0, e1, e2⟩ := g4 _ _ hrf
      rw [e2]; exact h.nm p hp rf0 e1
  · cases hs

theorem closeIn_spec {d s} (h : DRel d s) (k : Nat) {o s'} (hs : dstep s (.closeIn k) = some (o, s')) :
    ∃ d', doOp d (.closeIn k) = .ok (o, d') ∧ DRel d' s' := by
  simp only [dstep] at hs
  simp only [doOp, closeIn, h.ins]
  split at hs
  · rename_i i hx
    cases hs
    have hm := List.mem_of_getElem? hx
    obtain ⟨x1, x2, g1, g2, g3, g4⟩ := release h.heap (h.ilt _ hm) (refs_pos_in hm)
    simp only [hx, g1, g2, Res.ok_bind]
    refine ⟨_, rfl, h.ht, g3.congr ?_, h.outs, rfl, h.ids, h.nlt,
      h.olt, fun i hp => h.ilt i (mem_set_none hp), ?_⟩
    · intro j _
      have hc := countP_set' (fun o : Option Nat => o == some j) hx none
      have e1 : ((none : Option Nat) == some j) = false := rfl
      simp only [e1] at hc
      simp only [upd, refs]
      by_cases hj : j = i
      · subst hj; simp at hc ⊢; omega
      · have : (some i == some j) = false := by simpa using fun e => hj e.symm
        simp only [this] at hc
        simp [hj] at hc ⊢; omega
    · intro p hp rf hrf
      obtain ⟨rf0, e1, e2⟩ := g4 _ _ hrf
      rw [e2]; exact h.nm p hp rf0 e1
  · cases hs

theorem read_spec {d s} (h : DRel d s) (k pos len : Nat) {o s'} (hs : dstep s (.read k pos len) = some (o, s')) :
    ∃ d', doOp d (.read k pos len) = .ok (o, d') ∧ DRel d' s' := by
  simp only [dstep] at hs
  simp only [doOp, read, h.ins]
  split at hs
  · rename_i i hx
    have hm := List.mem_of_getElem? hx
    have hi := h.ilt _ hm
    rw [List.getElem?_eq_getElem hi] at hs
    simp only at hs
    split at hs
    · rename_i hle
      cases hs
      obtain ⟨nm, hc⟩ := h.cell hi (refs_pos_in hm)
      exact ⟨d, by simp only [hx, getRF_ok hc, Res.ok_bind, if_pos hle], h⟩
    · cases hs
  · cases hs

theorem write_spec {d s} (h : DRel d s) (k : Nat) (bs : List Byte) {o s'} (hs : dstep s (.write k bs) = some (o, s')) :
    ∃ d', doOp d (.write k bs) = .ok (o, d') ∧ DRel d' s' := by
  simp only [dstep] at hs
  simp only [doOp, write, h.outs]
  split at hs
  · rename_i i p hx
    have hm := List.mem_of_getElem? hx
    have hi := h.olt _ _ hm
    have hi' : i < d.heap.length := by rw [h.heap.len]; exact hi
    rw [List.getElem?_eq_getElem hi] at hs
    cases hs
    obtain ⟨nm, hc⟩ := h.cell hi (refs_pos_out hm)
    have hrefs : ∀ j, refs { s with files := s.files.set i (writeAt s.files[i] p bs), outs := s.outs.set k (some (i, p + bs.length)) } j = refs s j := by
      intro j
      have hcc := countP_set' (fun o : Option (Nat × Nat) => o.map (·.1) == some j) hx (some (i, p + bs.length))
      simp only [Option.map_some] at hcc
      simp only [refs]; omega
    have hmem : ∀ i' p', some (i', p') ∈ s.outs.set k (some (i, p + bs.length)) → i' < s.files.length := by
      intro i' p' hp
      rcases List.mem_or_eq_of_mem_set hp with hp | hp
      · exact h.olt _ _ hp
      · cases hp; exact hi
    simp only [hx, getRF_ok hc, Res.ok_bind]
    refine ⟨_, rfl, h.ht, ⟨by simp [h.heap.len], ?_, ?_⟩, rfl, h.ins, h.ids, ?_, ?_, ?_, ?_⟩
    · intro j f hf hp
      rw [hrefs] at hp ⊢
      rw [getElem?_set' hi] at hf
      rw [getElem?_set' hi']
      by_cases hj : j = i
      · rw [if_pos hj] at hf ⊢
        cases hf
        exact ⟨nm, by rw [hj]⟩
      · rw [if_neg hj] at hf ⊢
        exact h.heap.cell j f hf hp
    · intro j hj hp
      rw [hrefs] at hp
      rw [getElem?_set' hi']
      have hij : j ≠ i := by
        intro e
        subst e
        have := refs_pos_out hm
        omega
      rw [if_neg hij]
      exact h.heap.gone j (by simpa using hj) hp
    · intro q hq; simp only [List.length_set]; exact h.nlt q hq
    · intro i' p' hp; simp only [List.length_set]; exact hmem i' p' hp
    · intro i' hp; simp only [List.length_set]; exact h.ilt i' hp
    · intro q hq rf hrf
      obtain ⟨rf0, e1, e2⟩ := sameNames_set hc (x := some ⟨nm, writeAt s.files[i] p bs, refs s i⟩) (fun r e => by cases e; rfl) _ _ hrf
      rw [e2]; exact h.nm q hq rf0 e1
  · cases hs

theorem openIn_spec {d s} (h : DRel d s) (n : Name) {o s'} (hs : dstep s (.openIn n) = some (o, s')) :
    ∃ d', doOp d (.openIn n) = .ok (o, d') ∧ DRel d' s' := by
  obtain ⟨t, h1, h2⟩ := get_spec h n
  simp only [dstep] at hs
  simp only [doOp, openIn, h1, Res.ok_bind]
  cases hl : lookupName s.names n with
  | none => rw [hl] at hs; cases hs; exact ⟨_, rfl, h2⟩
  | some i =>
    rw [hl] at hs; cases hs
    have hm := lookup_some hl
    have hi := h.nlt _ hm
    obtain ⟨x1, g1, g2, g3⟩ := addRef_spec h.heap hi (refs_pos_name hm)
    simp only [g1, Res.ok_bind, h.ins]
    refine ⟨_, rfl, h2.ht, g2.congr ?_, h.outs, rfl, h.ids, h.nlt, h.olt, ?_, ?_⟩
    · intro j _
      simp only [upd, refs, List.countP_append, List.countP_cons, List.countP_nil]
      by_cases hj : j = i
      · subst hj; simp; omega
      · have : (some i == some j) = false := by simpa using fun e => hj e.symm
        simp [hj, this]
    · intro i' hp
      rcases List.mem_append.1 hp with hp | hp
      · exact h.ilt _ hp
      · simp only [List.mem_singleton, Option.some.injEq] at hp; subst hp; exact hi
    · intro q hq rf hrf
      obtain ⟨rf0, e1, e2⟩ := g3 _ _ hrf
      rw [e2]; exact h.nm q hq rf0 e1

/-- Opening an output stream on a bound file. -/
theorem addOut {d s} (h : DRel d s) {n i} (hm : (n, i) ∈ s.names) :
    ∃ x1, addRef d.heap i = .ok x1 ∧ DRel { d with heap := x1, outs := d.outs ++ [some (i, 0)] } { s with outs := s.outs ++ [some (i, 0)] } := by
  have hi := h.nlt _ hm
  obtain ⟨x1, g1, g2, g3⟩ := addRef_spec h.heap hi (refs_pos_name hm)
  refine ⟨x1, g1, h.ht, g2.congr ?_, by simp only [h.outs], h.ins, h.ids, h.nlt, ?_, h.ilt, ?_⟩
  · intro j _
    simp only [upd, refs, List.countP_append, List.countP_cons, List.countP_nil, Option.map_some]
    by_cases hj : j = i
    · subst hj; simp; omega
    · have : (some i == some j) = false := by simpa using fun e => hj e.symm
      simp [hj, this]
  · intro i' p' hp
    rcases List.mem_append.1 hp with hp | hp
    · exact h.olt _ _ hp
    · simp only [List.mem_singleton, Option.some.injEq, Prod.mk.injEq] at hp; rw [hp.1]; exact hi
  · intro q hq rf hrf
    obtain ⟨rf0, e1, e2⟩ := g3 _ _ hrf
    rw [e2]; exact h.nm q hq rf0 e1

theorem openOut_spec {d s} (h : DRel d s) (n : Name) {o s'} (hs : dstep s (.openOut n) = some (o, s')) :
    ∃ d', doOp d (.openOut n) = .ok (o, d') ∧ DRel d' s' := by
  obtain ⟨t, h1, h2⟩ := get_spec h n
  simp only [dstep] at hs
  simp only [doOp, openOut, h1, Res.ok_bind]
  cases hl : lookupName s.names n with
  | none =>
    rw [hl] at hs; cases hs
    obtain ⟨d', g1, g2, _⟩ := create_spec h2 hl
    obtain ⟨x1, g3, g4⟩ := addOut g2 List.mem_cons_self
    simp only [g1, Res.ok_bind, h.heap.len, g3]
    exact ⟨_, by rw [h.outs], g4⟩
  | some i =>
    rw [hl] at hs; cases hs
    obtain ⟨x1, g3, g4⟩ := addOut h2 (lookup_some hl)
    simp only [Res.ok_bind]
    rw [show ({ d with ht := t } : Dir).heap = d.heap from rfl] at g3
    simp only [g3, Res.ok_bind, h.outs]
    exact ⟨_, rfl, by simpa only [h.outs] using g4⟩


theorem rename_spec {d s} (h : DRel d s) (a b : Name) {o s'} (hs : dstep s (.rename a b) = some (o, s')) :
    ∃ d', doOp d (.rename a b) = .ok (o, d') ∧ DRel d' s' := by
  obtain ⟨t, h1, h2⟩ := Hash.rem_spec strLaws h.ht a
  rw [← lookup_mfind] at h1
  rw [← unbind_mdel] at h2
  simp only [dstep] at hs
  simp only [doOp, rename, h1, Res.ok_bind]
  cases hl : lookupName s.names a with
  | none =>
    rw [hl] at hs; cases hs
    rw [unbind_absent hl] at h2
    exact ⟨_, rfl, h.ht' h2⟩
  | some i =>
    rw [hl] at hs; cases hs
    have hm := lookup_some hl
    have hi := h.nlt _ hm
    have hi' : i < d.heap.length := by rw [h.heap.len]; exact hi
    obtain ⟨nm, hc⟩ := h.cell hi (refs_pos_name hm)
    -- the other names stand for other files
    have hoth : ∀ p ∈ unbind s.names a, p.2 ≠ i := by
      have hn := h.ids
      rw [((h.perm hl).map (·.2)).nodup_iff] at hn
      simp only [List.map_cons, List.nodup_cons] at hn
      intro p hp e
      exact hn.1 (e ▸ List.mem_map_of_mem hp)
    have hsub : ∀ p, p ∈ unbind s.names a → p ∈ s.names := fun p hp => (List.mem_filter.1 hp).1
    -- the state between removing the old name and entering the new one
    have hH : HOK (d.heap.set i (some ⟨b, s.files[i], refs s i⟩)) s.files (upd (refs s) i (refs s i)) :=
      h.heap.setRef (List.getElem?_eq_getElem hi) _ (refs_pos_name hm)
    have hupd : upd (refs s) i (refs s i) = refs s := by funext j; simp only [upd]; split <;> simp_all
    rw [hupd] at hH
    obtain ⟨t2, h3, h4⟩ := HashSet.get_spec strLaws h2 b
    rw [← lookup_mfind] at h4
    obtain ⟨st, t3, h5, h6⟩ := HashSet.hset_spec strLaws h3 b i
    rw [← unbind_mdel] at h5
    have hst : (lookupName (unbind s.names a) b = none → st = .absent) ∧ (lookupName (unbind s.names a) b ≠ none → st ≠ .absent) := by
      obtain ⟨t4, k1, k2⟩ := Hash.doOp_spec strLaws h3 (.set b i)
      simp only [Hash.doOp, h6, Res.ok_bind, hstep, Res.ok.injEq, Prod.mk.injEq, mstatus] at k1
      rw [lookup_mfind]
      cases hf : mfind strFns.eq (unbind s.names a) b with
      | none => rw [hf] at k1; refine ⟨fun _ => ?_, fun hh => absurd rfl hh⟩; cases st <;> simp_all [Hash.Status.obs]
      | some p => rw [hf] at k1; refine ⟨fun hh => by simp at hh, fun _ e => ?_⟩; subst e; simp [Hash.Status.obs, strFns] at k1
    have hnm : ∀ heap, SameNames (d.heap.set i (some ⟨b, s.files[i], refs s i⟩)) heap → ∀ p ∈ (b, i) :: unbind (unbind s.names a) b,
        ∀ rf : RF, heap[p.2]? = some (some rf) → rf.name = p.1 := by
      intro heap hsn p hp rf hrf
      obtain ⟨rf0, e1, e2⟩ := hsn _ _ hrf
      rw [getElem?_set' hi'] at e1
      rcases List.mem_cons.1 hp with rfl | hp
      · simp only [if_true, Option.some.injEq] at e1
        rw [e2, ← e1]
      · have hp' := (List.mem_filter.1 hp).1
        rw [if_neg (hoth p hp')] at e1
        rw [e2]; exact h.nm p (hsub p hp') rf0 e1
    have hids : (((b, i) :: unbind (unbind s.names a) b).map (·.2)).Nodup := by
      simp only [List.map_cons, List.nodup_cons]
      refine ⟨?_, h.ids.sublist (List.Sublist.map _ (List.filter_sublist.trans List.filter_sublist))⟩
      intro hx
      obtain ⟨p, hp, e⟩ := List.mem_map.1 hx
      exact hoth p (List.mem_filter.1 hp).1 e
    have hnlt : ∀ p ∈ (b, i) :: unbind (unbind s.names a) b, p.2 < s.files.length := by
      intro p hp
      rcases List.mem_cons.1 hp with rfl | hp
      · exact hi
      · exact h.nlt p (hsub p (List.mem_filter.1 hp).1)
    simp only [getRF_ok hc, Res.ok_bind, h4]
    cases hb : lookupName (unbind s.names a) b with
    | none =>
      rw [hst.1 hb] at h6
      simp only [Res.ok_bind, h6, freeOld]
      refine ⟨_, rfl, h5, hH.congr ?_, h.outs, h.ins, hids, hnlt, h.olt, h.ilt, hnm _ (SameNames.refl _)⟩
      intro j _
      rw [refs_unbind h hl j, unbind_absent hb]
      simp only [refs, List.countP_cons]
      by_cases hj : j = i
      · subst hj; simp; omega
      · have : (i == j) = false := by simpa using fun e => hj e.symm
        simp [hj, this]
    | some u =>
      have hu := lookup_some hb
      have hu' := hsub _ hu
      have hui : u ≠ i := hoth _ hu
      obtain ⟨x1, x2, g1, g2, g3, g4⟩ := release hH (h.nlt _ hu') (refs_pos_name hu')
      have hfo : freeOld x1 st (some u) i = .ok x2 := by
        have := hst.2 (by rw [hb]; simp)
        cases st with
        | absent => exact absurd rfl this
        | equal => simp only [freeOld, if_neg hui, g2]
        | same => simp only [freeOld, if_neg hui, g2]
      simp only [g1, Res.ok_bind, h6, hfo]
      refine ⟨_, rfl, h5, g3.congr ?_, h.outs, h.ins, hids, hnlt, h.olt, h.ilt, hnm _ g4⟩
      intro j _
      have hp2 : (unbind s.names a).Perm ((b, u) :: unbind (unbind s.names a) b) := by
        obtain ⟨A, B, e⟩ := List.append_of_mem hu
        have hpm : (unbind s.names a).Perm ((b, u) :: (A ++ B)) := by rw [e]; exact List.perm_middle
        have := Hash.mfind_present strLaws h2.dist hpm (k := b) (by simp [strFns])
        exact hpm.trans (List.Perm.cons _ this.2.symm)
      have e1 : ∀ j, refs s j = refs { s with names := unbind s.names a } j + if j = i then 1 else 0 := refs_unbind h hl
      have e2 : ∀ j, refs { s with names := unbind s.names a } j = refs { s with names := unbind (unbind s.names a) b } j + if j = u then 1 else 0 := by
        intro j
        simp only [refs, hp2.countP_eq, List.countP_cons]
        by_cases hj : j = u
        · subst hj; simp; omega
        · have : (u == j) = false := by simpa using fun e => hj e.symm
          simp [hj, this]
      have e3 : ∀ j, refs { s with names := (b, i) :: unbind (unbind s.names a) b } j = refs { s with names := unbind (unbind s.names a) b } j + if j = i then 1 else 0 := by
        intro j
        simp only [refs, List.countP_cons]
        by_cases hj : j = i
        · subst hj; simp; omega
        · have : (i == j) = false := by simpa using fun e => hj e.symm
          simp [hj, this]
      rw [e3 j]
      have a1 := e1 j; have a2 := e2 j
      simp only [upd]
      by_cases hj : j = u
      · subst hj
        simp only [if_true] at a2 ⊢
        omega
      · rw [if_neg hj] at a2 ⊢; omega

/-! The loops that delete by slot. -/

theorem lookup_ents {V : Type} {F : Fns Name} {t : Tbl Name V} {k r} (h : Hash.lookup F t k = .ok r) :
    r.2.2.table.length = t.table.length ∧ r.2.2.table[r.1]? = some r.2.1 ∧
    ∀ (j : Nat) (e : Entry Name V), r.2.2.table[j]? = some e → ∃ e0, t.table[j]? = some e0 ∧ ent e = ent e0 := by
  unfold Hash.lookup at h
  rw [Res.bind_eq_ok] at h
  obtain ⟨f, _, h⟩ := h
  cases he : t.table[f.idx]? with
  | none => rw [he] at h; cases h
  | some e =>
    rw [he] at h
    simp only [Res.ok.injEq] at h
    subst h
    have hi := (List.getElem?_eq_some_iff.1 he).1
    refine ⟨by simp, List.getElem?_set_self hi, ?_⟩
    intro j e' hj
    simp only [getElem?_set' hi] at hj
    split at hj
    · rename_i hji; subst hji
      refine ⟨e, he, ?_⟩
      rw [← Option.some.inj hj]
      split <;> rfl
    · exact ⟨e', hj, rfl⟩

theorem rem_ents {V : Type} {F : Fns Name} {t : Tbl Name V} {k v b t'} (h : Hash.rem F t k = .ok (v, b, t')) :
    t'.table.length = t.table.length ∧
    ∀ (j : Nat) (e : Entry Name V), t'.table[j]? = some e → ∃ e0, t.table[j]? = some e0 ∧ (ent e = ent e0 ∨ ent e = none) := by
  unfold Hash.rem at h
  rw [Res.bind_eq_ok] at h
  obtain ⟨r, h1, h⟩ := h
  obtain ⟨l1, l2, l3⟩ := lookup_ents h1
  split at h
  · split at h
    · cases h
    · simp only [Res.ok.injEq, Prod.mk.injEq] at h
      obtain ⟨_, _, rfl⟩ := h
      refine ⟨by simp [l1], ?_⟩
      intro j e hj
      have hi := (List.getElem?_eq_some_iff.1 l2).1
      simp only [getElem?_set' hi] at hj
      split at hj
      · rename_i hji; subst hji
        obtain ⟨e0, g1, _⟩ := l3 _ _ l2
        refine ⟨e0, g1, .inr ?_⟩
        rw [← Option.some.inj hj]; rfl
      · obtain ⟨e0, g1, g2⟩ := l3 _ _ hj
        exact ⟨e0, g1, .inl g2⟩
  · simp only [Res.ok.injEq, Prod.mk.injEq] at h
    obtain ⟨_, _, rfl⟩ := h
    refine ⟨l1, fun j e hj => ?_⟩
    obtain ⟨e0, g1, g2⟩ := l3 _ _ hj
    exact ⟨e0, g1, .inl g2⟩

theorem clearLoop_spec (del : Name → Bool) : ∀ (n i : Nat) {d s}, DRel d s → i + n = d.ht.table.length →
    (∀ (j : Nat) (e : Entry Name Nat) p, j < i → d.ht.table[j]? = some e → ent e = some p → del p.1 = false) →
    ∃ d', clearLoop del n i d = .ok d' ∧ DRel d' { s with names := s.names.filter (fun p => !del p.1) } := by
  intro n
  induction n with
  | zero =>
    intro i d s h hn hdone
    refine ⟨d, rfl, ?_⟩
    have : s.names.filter (fun p => !del p.1) = s.names := by
      refine List.filter_eq_self.2 (fun p hp => ?_)
      have hp' := h.ht.perm.mem_iff.2 hp
      obtain ⟨j, e, h1, h2⟩ := Hash.mem_entries.1 hp'
      have := (List.getElem?_eq_some_iff.1 h1).1
      rw [hdone j e p (by omega) h1 h2]; rfl
    rw [this]; exact h
  | succ n ih =>
    intro i d s h hn hdone
    have hi : i < d.ht.table.length := by omega
    have he : d.ht.table[i]? = some d.ht.table[i] := List.getElem?_eq_getElem hi
    simp only [clearLoop, he]
    cases hv : (d.ht.table[i]).value with
    | none =>
      simp only
      refine ih (i + 1) h (by omega) ?_
      intro j e p hj h1 h2
      by_cases hji : j = i
      · subst hji; rw [he] at h1; cases h1
        have := (Hash.ent_some h2).2
        rw [hv] at this; cases this
      · exact hdone j e p (by omega) h1 h2
    | some f =>
      simp only
      have hlive : ∃ k, (d.ht.table[i]).key = .live k := by
        refine Classical.byContradiction fun hc => ?_
        have := h.ht.inv.dead i _ he (fun k hk => hc ⟨k, hk⟩)
        rw [hv] at this; cases this
      obtain ⟨k, hk⟩ := hlive
      have hent := Hash.ent_live hk hv
      have hm : (k, f) ∈ s.names := h.ht.perm.mem_iff.1 (Hash.mem_entries.2 ⟨i, _, he, hent⟩)
      have hf := h.nlt _ hm
      obtain ⟨nm, hc⟩ := h.cell hf (refs_pos_name hm)
      have hnm : nm = k := h.nm _ hm _ hc
      subst hnm
      simp only [getRF_ok hc, Res.ok_bind]
      by_cases hdel : del nm
      · simp only [hdel, if_true]
        have hl : lookupName s.names nm = some f := by
          obtain ⟨A, B, e⟩ := List.append_of_mem hm
          have := Hash.mfind_present strLaws h.ht.dist (by rw [e]; exact List.perm_middle) (k := nm) (by simp [strFns])
          rw [lookup_mfind, this.1]; rfl
        obtain ⟨t, h1, h2⟩ := Hash.rem_spec strLaws h.ht nm
        rw [← lookup_mfind, hl] at h1
        rw [← unbind_mdel] at h2
        obtain ⟨x1, x2, g1, g2, g3, g4⟩ := release h.heap hf (refs_pos_name hm)
        obtain ⟨l1, l2⟩ := rem_ents h1
        simp only [g1, Res.ok_bind, h1, g2]
        have hrel : DRel { d with heap := x2, ht := t } { s with names := unbind s.names nm } := by
          refine rem_names h nm h2 (g3.congr ?_) g4
          intro j _
          have := refs_unbind h hl j
          have := refs_unbind h hl f
          simp only [upd]
          split <;> simp_all
        obtain ⟨d', k1, k2⟩ := ih (i + 1) hrel (by simp only [l1]; omega) (by
          intro j e p hj h3 h4
          obtain ⟨e0, h5, h6⟩ := l2 j e h3
          rcases h6 with h6 | h6
          · rw [h4] at h6
            by_cases hji : j = i
            · subst hji
              rw [he] at h5; cases h5
              rw [hent] at h6; cases h6
              have hp' : (nm, f) ∈ unbind s.names nm := h2.perm.mem_iff.1 (Hash.mem_entries.2 ⟨j, e, h3, h4⟩)
              have := (List.mem_filter.1 hp').2
              simp at this
            · exact hdone j e0 p (by omega) h5 h6.symm
          · rw [h4] at h6; cases h6)
        refine ⟨d', k1, ?_⟩
        have e : (unbind s.names nm).filter (fun p => !del p.1) = s.names.filter (fun p => !del p.1) := by
          unfold unbind
          rw [List.filter_filter]
          refine List.filter_congr (fun p _ => ?_)
          by_cases hpn : p.1 = nm
          · subst hpn; simp [hdel]
          · simp [hpn]
        simp only [e] at k2
        exact k2
      · simp only [hdel, Bool.false_eq_true, if_false]
        refine ih (i + 1) h (by omega) ?_
        intro j e p hj h1 h2
        by_cases hji : j = i
        · subst hji; rw [he] at h1; cases h1
          rw [hent] at h2; cases h2
          simpa using hdel
        · exact hdone j e p (by omega) h1 h2

theorem clearWith_spec (del : Name → Bool) {d s} (h : DRel d s) :
    ∃ d', clearWith del d = .ok d' ∧ DRel d' { s with names := s.names.filter (fun p => !del p.1) } :=
  clearLoop_spec del _ 0 h (by omega) (fun j _ _ hj => absurd hj (Nat.not_lt_zero _))

theorem doOp_spec {d s} (h : DRel d s) (op : DOp) {o s'} (hs : dstep s op = some (o, s')) :
    ∃ d', doOp d op = .ok (o, d') ∧ DRel d' s' := by
  cases op with
  | touch n => exact touch_spec h n hs
  | exist n => exact exist_spec h n hs
  | remove n => exact remove_spec h n hs
  | rename a b => exact rename_spec h a b hs
  | count => exact count_spec h hs
  | length n => exact length_spec h n hs
  | openOut n => exact openOut_spec h n hs
  | write k bs => exact write_spec h k bs hs
  | closeOut k => exact closeOut_spec h k hs
  | openIn n => exact openIn_spec h n hs
  | read k pos len => exact read_spec h k pos len hs
  | closeIn k => exact closeIn_spec h k hs
  | clear =>
    obtain ⟨d', g1, g2⟩ := clearWith_spec (fun n => !isLockName n) h
    simp only [dstep, Option.some.injEq, Prod.mk.injEq] at hs
    obtain ⟨rfl, rfl⟩ := hs
    exact ⟨d', by simp only [doOp, g1, Res.ok_bind], by simpa only [Bool.not_not] using g2⟩
  | clearLocks =>
    obtain ⟨d', g1, g2⟩ := clearWith_spec isLockName h
    simp only [dstep, Option.some.injEq, Prod.mk.injEq] at hs
    obtain ⟨rfl, rfl⟩ := hs
    exact ⟨d', by simp only [doOp, g1, Res.ok_bind], g2⟩
  | clearAll =>
    obtain ⟨d', g1, g2⟩ := clearWith_spec (fun _ => true) h
    simp only [dstep, Option.some.injEq, Prod.mk.injEq] at hs
    obtain ⟨rfl, rfl⟩ := hs
    have e : s.names.filter (fun p => !(fun _ => true) p.1) = [] := List.filter_eq_nil_iff.2 (by simp)
    simp only [e] at g2
    exact ⟨d', by simp only [doOp, g1, Res.ok_bind], g2⟩

theorem doOps_spec (ops : List DOp) : ∀ {d s}, DRel d s → ∀ {o s'}, drun s ops = some (o, s') →
    ∃ d', doOps d ops = .ok (o, d') ∧ DRel d' s' := by
  induction ops with
  | nil => intro d s h o s' hs; cases hs; exact ⟨d, rfl, h⟩
  | cons op ops ih =>
    intro d s h o s' hs
    simp only [drun, Option.bind_eq_some_iff, Option.map_eq_some_iff] at hs
    obtain ⟨⟨o1, s1⟩, h1, ⟨o2, s2⟩, h2, h3⟩ := hs
    cases h3
    obtain ⟨d1, g1, g2⟩ := doOp_spec h op h1
    obtain ⟨d2, g3, g4⟩ := ih g2 h2
    exact ⟨d2, by simp only [doOps, g1, g3, Res.ok_bind], g4⟩

theorem drel_new : DRel new emptyDir :=
  ⟨Hash.rel_new, ⟨rfl, fun i f h => (by simp [emptyDir] at h), fun i h => absurd h (Nat.not_lt_zero _)⟩, rfl, rfl, List.nodup_nil,
    fun p hp => (by simp [emptyDir] at hp), fun i p hp => (by simp [emptyDir] at hp), fun i hp => (by simp [emptyDir] at hp), fun p hp => (by simp [emptyDir] at hp)⟩

theorem eachLoop_spec {d s} (h : DRel d s) : ∀ (n i : Nat), i + n = d.ht.table.length →
    eachLoop d n i = .ok (((entries (d.ht.table.drop i)).map (·.1)).filter (fun n => !decide (n.take lockPrefix.length = lockPrefix))) := by
  intro n
  induction n with
  | zero => intro i hi; rw [List.drop_eq_nil_of_le (by omega)]; rfl
  | succ n ih =>
    intro i hi
    have hi' : i < d.ht.table.length := by omega
    have he : d.ht.table[i]? = some d.ht.table[i] := List.getElem?_eq_getElem hi'
    rw [List.drop_eq_getElem_cons hi']
    simp only [eachLoop, he, entries, List.filterMap_cons]
    have ih := ih (i + 1) (by omega)
    simp only [entries] at ih
    cases hv : (d.ht.table[i]).value with
    | none =>
      have : ent d.ht.table[i] = none := by
        cases hx : ent d.ht.table[i] with
        | none => rfl
        | some p => have := (Hash.ent_some hx).2; rw [hv] at this; cases this
      simp only [this, ih]
    | some f =>
      have hlive : ∃ k, (d.ht.table[i]).key = .live k := by
        refine Classical.byContradiction fun hc => ?_
        have := h.ht.inv.dead i _ he (fun k hk => hc ⟨k, hk⟩)
        rw [hv] at this; cases this
      obtain ⟨k, hk⟩ := hlive
      have hent := Hash.ent_live hk hv
      have hm : (k, f) ∈ s.names := h.ht.perm.mem_iff.1 (Hash.mem_entries.2 ⟨i, _, he, hent⟩)
      obtain ⟨nm, hc⟩ := h.cell (h.nlt _ hm) (refs_pos_name hm)
      have hnm : nm = k := h.nm _ hm _ hc
      subst hnm
      simp only [getRF_ok hc, Res.ok_bind, hent, List.map_cons, List.filter_cons]
      by_cases hp : nm.take lockPrefix.length = lockPrefix
      · simp only [hp, if_true, ih]; simp
      · simp only [hp, if_false, ih, Res.ok_bind]; simp

theorem each_spec {d s} (h : DRel d s) :
    ∃ l, each d = .ok l ∧ l.Perm ((s.names.map (·.1)).filter (fun n => !decide (n.take lockPrefix.length = lockPrefix))) := by
  refine ⟨_, eachLoop_spec h _ 0 (by omega), ?_⟩
  rw [List.drop_zero]
  exact (h.ht.perm.map _).filter _

end Ferret.RamDir
