import Verif.Lemmas.Readers
import Verif.Props.C22

/-! C26: deletions. -/

namespace Ferret.Props
open Ferret Ferret.BitVector Ferret.Spec Ferret.Rdr

/-! ### What is run -/

/-- A reader and its directory. -/
structure DelW where
  rd : IR
  ss : List SegDir

def delStep (w : DelW) : DelOp → Res (DelW × DelOut)
  | .delete d => rdDelete w.rd d >>= fun r => .ok (⟨r, w.ss⟩, .done)
  | .undeleteAll => .ok (⟨rdUndeleteAll w.rd, w.ss⟩, .done)
  | .commit => rdCommit w.rd w.ss >>= fun x => .ok (⟨x.1, x.2⟩, .done)
  | .reopen => rdCommit w.rd w.ss >>= fun x => rdOpen x.2 >>= fun r => .ok (⟨r, x.2⟩, .done)
  | .torn k => rdTorn k w.rd w.ss >>= fun ss => rdOpen ss >>= fun r => .ok (⟨r, ss⟩, .done)
  | .isDeleted d => rdIsDeleted w.rd d >>= fun b => .ok (w, .flag b)
  | .numDocs => .ok (⟨(rdNumDocs w.rd).1, w.ss⟩, .count (rdNumDocs w.rd).2)
  | .hasDeletions => .ok (w, .flag (rdHasDeletions w.rd))

def delRun : DelW → List DelOp → Res (List DelOut)
  | _, [] => .ok []
  | w, op :: ops => delStep w op >>= fun r => delRun r.1 ops >>= fun os => .ok (r.2 :: os)

/-- A directory with segments of these sizes and no deletions. -/
def freshDir (sizes : List Nat) : List SegDir := sizes.map fun n => ⟨n, -1, fun _ => none⟩

/-! ### One segment -/

theorem any_range {f : Nat → Bool} {n : Nat} : (List.range n).any f = true ↔ ∃ j, j < n ∧ f j = true := by
  simp [List.any_eq_true]

/-- The bit vector of the deletions of a segment. -/
def Marks (del : Option BV) (size : Nat) (f : Nat → Bool) : Prop :=
  match del with
  | none => ∀ j, j < size → f j = false
  | some bv => Rep bv (fun j => decide (j < size) && f j) ∧ bv.size ≤ size ∧ ∃ j, j < size ∧ f j = true

/-- What is on disk says `g`. -/
structure Saved (s : SegDir) (g : Nat → Bool) : Prop where
  size : s.size < 2 ^ 31
  gen : -1 ≤ s.gen
  none : s.gen < 0 → ∀ j, j < s.size → g j = false
  file : 0 ≤ s.gen → ∃ b bv, s.files s.gen = some b ∧ bvRead b = .ok bv ∧ Marks (some bv) s.size g

structure SegOK (f g : Nat → Bool) (r : SegR) (s : SegDir) : Prop where
  size : r.size = s.size
  gen : r.gen = s.gen
  marks : Marks r.del s.size f
  undel : r.undel = true → r.del = none
  dirty : r.dirty = true → r.del ≠ none
  clean : r.undel = false → r.dirty = false → ∀ j, j < s.size → f j = g j
  changes : r.changes = false → r.undel = false ∧ r.dirty = false
  saved : Saved s g

theorem marks_congr {del : Option BV} {size : Nat} {f f' : Nat → Bool} (h : Marks del size f) (he : ∀ j, j < size → f j = f' j) : Marks del size f' := by
  cases del with
  | none => exact fun j hj => (he j hj).symm.trans (h j hj)
  | some bv =>
    obtain ⟨h1, h2, j, h3, h4⟩ := h
    refine ⟨⟨h1.wf, h1.ext, h1.count, fun j => ?_⟩, h2, j, h3, (he j h3).symm.trans h4⟩
    rw [h1.bits]
    by_cases hj : j < size
    · rw [he j hj]
    · simp [hj]

theorem saved_congr {s : SegDir} {g g' : Nat → Bool} (h : Saved s g) (he : ∀ j, j < s.size → g j = g' j) : Saved s g' := by
  refine ⟨h.size, h.gen, fun hn j hj => (he j hj).symm.trans (h.none hn j hj), fun hp => ?_⟩
  obtain ⟨b, bv, h1, h2, h3⟩ := h.file hp
  exact ⟨b, bv, h1, h2, marks_congr h3 he⟩

theorem segOK_congr {f f' g g' : Nat → Bool} {r : SegR} {s : SegDir} (h : SegOK f g r s) (he : ∀ j, j < s.size → f j = f' j) (hg : ∀ j, j < s.size → g j = g' j) : SegOK f' g' r s :=
  ⟨h.size, h.gen, marks_congr h.marks he, h.undel, h.dirty, fun a b j hj => by rw [← he j hj, ← hg j hj]; exact h.clean a b j hj, h.changes, saved_congr h.saved hg⟩

theorem seg_isDeleted {f g : Nat → Bool} {r : SegR} {s : SegDir} (h : SegOK f g r s) {o : Nat} (ho : o < s.size) : srIsDeleted r (o : Int) = .ok (f o) := by
  have hm := h.marks
  unfold srIsDeleted
  cases hd : r.del with
  | none => rw [hd] at hm; rw [hm o ho]
  | some bv =>
    rw [hd] at hm
    dsimp only
    rw [hm.1.get o]
    simp [ho]

theorem seg_delete {f g : Nat → Bool} {r : SegR} {s : SegDir} (h : SegOK f g r s) {o : Nat} (ho : o < s.size) :
    ∃ r', srDelete r (o : Int) = .ok r' ∧ SegOK (fun j => f j || decide (j = o)) g r' s := by
  have hm := h.marks
  have key : ∃ bv', BitVector.set (r.del.getD BitVector.new) (o : Int) = .ok bv' ∧ Marks (some bv') s.size (fun j => f j || decide (j = o)) := by
    cases hd : r.del with
    | none =>
      rw [hd] at hm
      obtain ⟨bv', e1, e2, e3⟩ := rep_set rep_new o (n := s.size) (Nat.zero_le _) ho
      refine ⟨bv', e1, ⟨e2.wf, e2.ext, e2.count, fun j => ?_⟩, e3, o, ho, by simp⟩
      rw [e2.bits]
      by_cases hj : j < s.size
      · simp [hj, hm j hj]
      · have : j ≠ o := by omega
        simp [hj, this]
    | some bv =>
      rw [hd] at hm
      obtain ⟨bv', e1, e2, e3⟩ := rep_set hm.1 o hm.2.1 ho
      refine ⟨bv', e1, ⟨e2.wf, e2.ext, e2.count, fun j => ?_⟩, e3, o, ho, by simp⟩
      rw [e2.bits]
      by_cases hj : j < s.size
      · simp [hj]
      · have : j ≠ o := by omega
        simp [hj, this]
  obtain ⟨bv', e1, e2⟩ := key
  unfold srDelete
  rw [e1, Res.ok_bind]
  refine ⟨_, rfl, h.size, h.gen, e2, (fun hh => nomatch hh), (fun _ hh => nomatch hh), (fun _ hh => nomatch hh), (fun hh => nomatch hh), h.saved⟩

theorem seg_undelete {f g : Nat → Bool} {r : SegR} {s : SegDir} (h : SegOK f g r s) : SegOK (fun _ => false) g (srUndeleteAll r) s :=
  ⟨h.size, h.gen, fun _ _ => rfl, fun _ => rfl, (fun hh => nomatch hh), (fun hh => nomatch hh), (fun hh => nomatch hh), h.saved⟩

theorem seg_numDocs {f g : Nat → Bool} {r : SegR} {s : SegDir} (h : SegOK f g r s) : srNumDocs r = (s.size : Int) - (cnt f s.size : Nat) := by
  have hm := h.marks
  unfold srNumDocs
  rw [h.size]
  cases hd : r.del with
  | none =>
    rw [hd] at hm
    dsimp only
    have : cnt f s.size = 0 := by
      have := cnt_congr (f := f) (g := fun _ => false) (n := s.size) hm
      rw [this, cnt_false]
    omega
  | some bv =>
    rw [hd] at hm
    dsimp only
    have h1 := hm.1.num (n := s.size) fun j hj => by simp at hj; exact hj.1
    have h2 := cnt_congr (f := fun j => decide (j < s.size) && f j) (g := f) (n := s.size) fun i hi => by simp [hi]
    rw [h1, h2]

theorem seg_hasDel {f g : Nat → Bool} {r : SegR} {s : SegDir} (h : SegOK f g r s) : srHasDeletions r = (List.range s.size).any f := by
  have hm := h.marks
  unfold srHasDeletions
  rw [Bool.eq_iff_iff, any_range]
  cases hd : r.del with
  | none =>
    rw [hd] at hm
    constructor
    · intro hh; cases hh
    · rintro ⟨j, h1, h2⟩; rw [hm j h1] at h2; cases h2
  | some bv => rw [hd] at hm; exact ⟨fun _ => hm.2.2, fun _ => rfl⟩

/-- Committing saves the marks; until the generation is published the old ones are there. -/
theorem seg_commit {f g : Nat → Bool} {r : SegR} {s : SegDir} (h : SegOK f g r s) :
    ∃ x, subCommit r s.files = .ok x ∧ SegOK f f x.1 { s with gen := x.1.gen, files := x.2 } ∧ Saved { s with files := x.2 } g ∧ x.1.changes = false := by
  have hclean : ∀ r' : SegR, r'.size = r.size → r'.gen = r.gen → r'.del = r.del → r'.undel = false → r'.dirty = false → (∀ j, j < s.size → f j = g j) → SegOK f f r' s := by
    intro r' k1 k2 k3 k4 k5 k6
    refine ⟨k1.trans h.size, k2.trans h.gen, k3 ▸ h.marks, fun hh => absurd (k4.symm.trans hh) (by decide), fun hh => absurd (k5.symm.trans hh) (by decide), fun _ _ _ _ => rfl, fun _ => ⟨k4, k5⟩, saved_congr h.saved fun j hj => (k6 j hj).symm⟩
  unfold subCommit
  by_cases hc : r.changes = true
  · rw [if_pos hc]
    unfold srCommit
    by_cases hf : (r.undel || r.dirty) = true
    · rw [if_pos hf]
      by_cases hu : r.undel = true
      · rw [if_pos hu, Res.ok_bind]
        have hnone := h.undel hu
        have hm := h.marks
        rw [hnone] at hm
        refine ⟨_, rfl, ⟨h.size, rfl, h.marks, fun _ => hnone, fun hd => absurd hnone (h.dirty hd), fun _ _ _ _ => rfl, fun _ => ⟨rfl, ?_⟩, ?_⟩, h.saved, rfl⟩
        · cases hd : r.dirty with
          | false => rfl
          | true => exact absurd hnone (h.dirty hd)
        · exact ⟨h.saved.size, Int.le_refl _, fun _ => hm, fun hh => absurd hh (show ¬ (0 : Int) ≤ -1 by decide)⟩
      · rw [if_neg hu]
        have hd : r.dirty = true := by simpa [hu] using hf
        have hu' : r.undel = false := by simpa using hu
        have hne := h.dirty hd
        have hm := h.marks
        cases hdel : r.del with
        | none => exact absurd hdel hne
        | some bv =>
          rw [hdel] at hm
          dsimp only
          obtain ⟨b, e1, bv', e2, e3, e4⟩ := write_read hm.1 (by have := hm.2.1; have := h.saved.size; omega)
          rw [e1]
          simp only [Res.ok_bind]
          refine ⟨_, rfl, ⟨h.size, rfl, hm, fun hh => absurd (hu'.symm.trans hh) (by decide), (fun hh => nomatch hh), fun _ _ _ _ => rfl, fun _ => ⟨hu', rfl⟩, ?_⟩, ?_, rfl⟩
          · refine ⟨h.saved.size, ?_, ?_, ?_⟩
            · have := h.saved.gen; rw [← h.gen] at this; show -1 ≤ r.gen + 1; omega
            · intro hh; have := h.saved.gen; rw [← h.gen] at this; dsimp only at hh; omega
            · intro _
              refine ⟨b, bv', ?_, e2, e3, by rw [e4]; exact hm.2.1, hm.2.2⟩
              show (if r.gen + 1 = r.gen + 1 then some b else s.files (r.gen + 1)) = some b
              rw [if_pos rfl]
          · refine ⟨h.saved.size, h.saved.gen, h.saved.none, fun hh => ?_⟩
            obtain ⟨b', bv'', k1, k2, k3⟩ := h.saved.file hh
            refine ⟨b', bv'', ?_, k2, k3⟩
            show (if s.gen = r.gen + 1 then some b else s.files s.gen) = some b'
            rw [if_neg (by rw [h.gen]; omega)]
            exact k1
    · rw [if_neg hf, Res.ok_bind]
      have h1 : r.undel = false := by cases hx : r.undel <;> simp_all
      have h2 : r.dirty = false := by cases hx : r.dirty <;> simp_all
      have hk := hclean { r with changes := false } rfl rfl rfl h1 h2 (h.clean h1 h2)
      refine ⟨_, rfl, ?_, h.saved, rfl⟩
      have e : ({ s with gen := r.gen, files := s.files } : SegDir) = s := by rw [h.gen]
      show SegOK f f { r with changes := false } { s with gen := r.gen, files := s.files }
      rw [e]; exact hk
  · rw [if_neg hc]
    have hc' : r.changes = false := by simpa using hc
    obtain ⟨h1, h2⟩ := h.changes hc'
    have hk := hclean r rfl rfl rfl h1 h2 (h.clean h1 h2)
    refine ⟨_, rfl, ?_, h.saved, hc'⟩
    have e : ({ s with gen := r.gen, files := s.files } : SegDir) = s := by rw [h.gen]
    show SegOK f f r { s with gen := r.gen, files := s.files }
    rw [e]; exact hk

theorem seg_open {g : Nat → Bool} {s : SegDir} (h : Saved s g) : ∃ r, srOpen s = .ok r ∧ SegOK g g r s ∧ r.changes = false := by
  unfold srOpen
  by_cases hp : s.gen ≥ 0
  · rw [if_pos hp]
    obtain ⟨b, bv, h1, h2, h3⟩ := h.file hp
    rw [h1]
    dsimp only
    rw [h2, Res.ok_bind]
    exact ⟨_, rfl, ⟨rfl, rfl, h3, (fun hh => nomatch hh), (fun hh => nomatch hh), fun _ _ _ _ => rfl, fun _ => ⟨rfl, rfl⟩, h⟩, rfl⟩
  · rw [if_neg hp]
    exact ⟨_, rfl, ⟨rfl, rfl, h.none (by omega), (fun hh => nomatch hh), (fun hh => nomatch hh), fun _ _ _ _ => rfl, fun _ => ⟨rfl, rfl⟩, h⟩, rfl⟩

/-! ### All segments -/

def Inv26 (now saved : Nat → Bool) : Nat → List SegR → List SegDir → Prop
  | _, [], [] => True
  | m, r :: rs, s :: ss => SegOK (fun j => now (m + j)) (fun j => saved (m + j)) r s ∧ Inv26 now saved (m + s.size) rs ss
  | _, _, _ => False

def SavedAll (saved : Nat → Bool) : Nat → List SegDir → Prop
  | _, [] => True
  | m, s :: ss => Saved s (fun j => saved (m + j)) ∧ SavedAll saved (m + s.size) ss

theorem inv_sizes {now saved : Nat → Bool} : ∀ {rs ss} {m : Nat}, Inv26 now saved m rs ss → rs.map (·.size) = ss.map (·.size) := by
  intro rs
  induction rs with
  | nil => intro ss m h; cases ss with
    | nil => rfl
    | cons => exact h.elim
  | cons r rs ih => intro ss m h; cases ss with
    | nil => exact h.elim
    | cons s ss => rw [List.map_cons, List.map_cons, h.1.size, ih h.2]

theorem inv_congr {now now' saved saved' : Nat → Bool} : ∀ {rs ss} {m : Nat}, Inv26 now saved m rs ss → (∀ j, m ≤ j → now j = now' j) → (∀ j, m ≤ j → saved j = saved' j) → Inv26 now' saved' m rs ss := by
  intro rs
  induction rs with
  | nil => intro ss m h _ _; cases ss with
    | nil => trivial
    | cons => exact h.elim
  | cons r rs ih => intro ss m h h1 h2; cases ss with
    | nil => exact h.elim
    | cons s ss => exact ⟨segOK_congr h.1 (fun j _ => h1 _ (by omega)) (fun j _ => h2 _ (by omega)), ih h.2 (fun j hj => h1 _ (by omega)) (fun j hj => h2 _ (by omega))⟩

/-- The segment of a document, and what deleting it there does. -/
theorem inv_at {now saved : Nat → Bool} : ∀ {rs ss} {m d i o : Nat}, Inv26 now saved m rs ss → whichSegment (ss.map (·.size)) d = some (i, o) →
    ∃ r, rs[i]? = some r ∧ srIsDeleted r (o : Int) = .ok (now (m + d)) ∧
      ∃ r', srDelete r (o : Int) = .ok r' ∧ Inv26 (fun j => now j || decide (j = m + d)) saved m (rs.set i r') ss := by
  intro rs
  induction rs with
  | nil => intro ss m d i o h hw; cases ss with
    | nil => simp [whichSegment] at hw
    | cons => exact h.elim
  | cons r rs ih =>
    intro ss m d i o h hw
    cases ss with
    | nil => exact h.elim
    | cons s ss =>
      rw [List.map_cons] at hw
      unfold whichSegment at hw
      by_cases hd : d < s.size
      · rw [if_pos hd] at hw
        cases hw
        obtain ⟨r', e1, e2⟩ := seg_delete h.1 hd
        refine ⟨r, rfl, seg_isDeleted h.1 hd, r', e1, segOK_congr e2 (fun j hj => ?_) (fun _ _ => rfl), inv_congr h.2 (fun j hj => ?_) fun _ _ => rfl⟩
        · congr 1
          rw [decide_eq_decide]
          omega
        · have : j ≠ m + d := by omega
          simp [this]
      · rw [if_neg hd] at hw
        obtain ⟨⟨x, y⟩, h1, h2⟩ := Option.map_eq_some_iff.1 hw
        cases h2
        obtain ⟨r0, k1, k2, r', k3, k4⟩ := ih h.2 h1
        have e : m + s.size + (d - s.size) = m + d := by omega
        rw [e] at k2 k4
        refine ⟨r0, by simpa using k1, k2, r', k3, segOK_congr h.1 (fun j hj => ?_) (fun _ _ => rfl), k4⟩
        have : ¬ m + j = m + d := by omega
        dsimp only
        rw [decide_eq_false this, Bool.or_false]

theorem inv_undelete {now saved : Nat → Bool} : ∀ {rs ss} {m : Nat}, Inv26 now saved m rs ss → Inv26 (fun _ => false) saved m (rs.map srUndeleteAll) ss := by
  intro rs
  induction rs with
  | nil => intro ss m h; cases ss with
    | nil => trivial
    | cons => exact h.elim
  | cons r rs ih => intro ss m h; cases ss with
    | nil => exact h.elim
    | cons s ss => exact ⟨seg_undelete h.1, ih h.2⟩

theorem inv_numDocs {now saved : Nat → Bool} : ∀ {rs ss} {m : Nat}, Inv26 now saved m rs ss →
    (rs.map srNumDocs).sum = (((ss.map (·.size)).sum : Nat) : Int) - (cnt (fun j => now (m + j)) (ss.map (·.size)).sum : Nat) := by
  intro rs
  induction rs with
  | nil => intro ss m h; cases ss with
    | nil => rfl
    | cons => exact h.elim
  | cons r rs ih => intro ss m h; cases ss with
    | nil => exact h.elim
    | cons s ss =>
      simp only [List.map_cons, List.sum_cons]
      rw [seg_numDocs h.1, ih h.2, cnt_add]
      have : cnt (fun j => now (m + s.size + j)) (ss.map (·.size)).sum = cnt (fun i => now (m + (s.size + i))) (ss.map (·.size)).sum := cnt_congr fun i _ => by rw [Nat.add_assoc]
      rw [this]
      omega

theorem inv_hasDel {now saved : Nat → Bool} : ∀ {rs ss} {m : Nat}, Inv26 now saved m rs ss →
    rs.any srHasDeletions = (List.range (ss.map (·.size)).sum).any fun j => now (m + j) := by
  intro rs
  induction rs with
  | nil => intro ss m h; cases ss with
    | nil => rfl
    | cons => exact h.elim
  | cons r rs ih => intro ss m h; cases ss with
    | nil => exact h.elim
    | cons s ss =>
      simp only [List.map_cons, List.sum_cons, List.any_cons]
      rw [seg_hasDel h.1, ih h.2, Bool.eq_iff_iff, Bool.or_eq_true, any_range, any_range, any_range]
      constructor
      · rintro (⟨j, h1, h2⟩ | ⟨j, h1, h2⟩)
        · exact ⟨j, by omega, h2⟩
        · exact ⟨s.size + j, by omega, by rw [← h2, Nat.add_assoc]⟩
      · rintro ⟨j, h1, h2⟩
        by_cases hj : j < s.size
        · exact Or.inl ⟨j, hj, h2⟩
        · refine Or.inr ⟨j - s.size, by omega, ?_⟩
          rw [← h2]
          congr 1
          omega

theorem inv_saved {now saved : Nat → Bool} : ∀ {rs ss} {m : Nat}, Inv26 now saved m rs ss → SavedAll saved m ss := by
  intro rs
  induction rs with
  | nil => intro ss m h; cases ss with
    | nil => trivial
    | cons => exact h.elim
  | cons r rs ih => intro ss m h; cases ss with
    | nil => exact h.elim
    | cons s ss => exact ⟨h.1.saved, ih h.2⟩

/-- A commit that stops after `k` segments leaves what was saved before. -/
theorem inv_torn {now saved : Nat → Bool} : ∀ {rs ss} {m k : Nat}, Inv26 now saved m rs ss →
    ∃ y, mrCommit k rs ss = .ok y ∧ SavedAll saved m y.2 ∧ y.2.map (·.size) = ss.map (·.size) := by
  intro rs
  induction rs with
  | nil => intro ss m k h; cases ss with
    | nil => exact ⟨([], []), by cases k <;> rfl, trivial, rfl⟩
    | cons => exact h.elim
  | cons r rs ih => intro ss m k h; cases ss with
    | nil => exact h.elim
    | cons s ss =>
      cases k with
      | zero => exact ⟨_, rfl, inv_saved h, rfl⟩
      | succ k =>
        obtain ⟨x, e1, -, e3, -⟩ := seg_commit h.1
        obtain ⟨y, g1, g2, g3⟩ := ih (k := k) h.2
        unfold mrCommit
        rw [e1, Res.ok_bind, g1, Res.ok_bind]
        refine ⟨_, rfl, ⟨e3, g2⟩, ?_⟩
        rw [List.map_cons, List.map_cons, g3]

/-- A commit that does not stop saves everything. -/
theorem inv_commit {now saved : Nat → Bool} : ∀ {rs ss} {m : Nat}, Inv26 now saved m rs ss →
    ∃ y, mrCommit rs.length rs ss = .ok y ∧ Inv26 now now m y.1 (saveGens y.1 y.2) ∧ (saveGens y.1 y.2).map (·.size) = ss.map (·.size) ∧ y.1.map (·.size) = rs.map (·.size) ∧ (∀ r ∈ y.1, r.changes = false) ∧ y.1.any srHasDeletions = rs.any srHasDeletions := by
  intro rs
  induction rs with
  | nil => intro ss m h; cases ss with
    | nil => exact ⟨_, rfl, trivial, rfl, rfl, (fun r hr => nomatch hr), rfl⟩
    | cons => exact h.elim
  | cons r rs ih => intro ss m h; cases ss with
    | nil => exact h.elim
    | cons s ss =>
      obtain ⟨x, e1, e2, -, e4⟩ := seg_commit h.1
      obtain ⟨y, g1, g2, g3, g4, g5, g6⟩ := ih h.2
      have hsz : x.1.size = r.size := by rw [e2.size, h.1.size]
      rw [List.length_cons]
      unfold mrCommit
      rw [e1, Res.ok_bind, g1, Res.ok_bind]
      refine ⟨_, rfl, ?_, ?_, ?_, ?_, ?_⟩
      · exact ⟨e2, g2⟩
      · unfold saveGens; rw [List.map_cons, List.map_cons, g3]
      · rw [List.map_cons, List.map_cons, g4, hsz]
      · intro r' hr'
        rcases List.mem_cons.1 hr' with rfl | hr'
        · exact e4
        · exact g5 r' hr'
      · rw [List.any_cons, List.any_cons, g6, seg_hasDel e2, seg_hasDel h.1]

theorem openAll_spec {saved : Nat → Bool} : ∀ {ss} {m : Nat}, SavedAll saved m ss → ∃ rs, openAll ss = .ok rs ∧ Inv26 saved saved m rs ss ∧ ∀ r ∈ rs, r.changes = false := by
  intro ss
  induction ss with
  | nil => intro m _; exact ⟨[], rfl, trivial, fun r hr => nomatch hr⟩
  | cons s ss ih =>
    intro m h
    obtain ⟨r, e1, e2, e3⟩ := seg_open h.1
    obtain ⟨rs, g1, g2, g3⟩ := ih h.2
    refine ⟨r :: rs, by unfold openAll; rw [e1, Res.ok_bind, g1, Res.ok_bind], ⟨e2, g2⟩, fun r' hr' => ?_⟩
    rcases List.mem_cons.1 hr' with rfl | hr'
    · exact e3
    · exact g3 r' hr'

/-! ### A reader -/

/-- The state of a reader on a directory with segments of these sizes. -/
def ROK (sizes : List Nat) (now saved : Nat → Bool) (w : DelW) : Prop :=
  w.ss.map (·.size) = sizes ∧
  match w.rd with
  | .one r => Inv26 now saved 0 [r] w.ss
  | .many m => Inv26 now saved 0 m.subs w.ss ∧ m.starts = startsFrom 0 sizes ∧ m.maxDoc = sizes.sum ∧
    (m.cache = -1 ∨ m.cache = (sizes.sum : Int) - (cnt now sizes.sum : Nat)) ∧ m.hasDel = (List.range sizes.sum).any now ∧ (m.changes = false → ∀ r ∈ m.subs, r.changes = false)

theorem zero_add_fun (f : Nat → Bool) : (fun j => f (0 + j)) = f := by funext j; rw [Nat.zero_add]

theorem rok_open {sizes : List Nat} {saved : Nat → Bool} {ss : List SegDir} (hs : ss.map (·.size) = sizes) (h : SavedAll saved 0 ss) :
    ∃ r, rdOpen ss = .ok r ∧ ROK sizes saved saved ⟨r, ss⟩ := by
  obtain ⟨rs, e1, e2, e3⟩ := openAll_spec h
  unfold rdOpen
  rw [e1, Res.ok_bind]
  have hmany : ROK sizes saved saved ⟨.many (mrNew rs), ss⟩ := by
    refine ⟨hs, e2, ?_, ?_, Or.inl rfl, ?_, fun _ => e3⟩
    · show startsFrom 0 (rs.map (·.size)) = _; rw [inv_sizes e2, hs]
    · show (rs.map (·.size)).sum = _; rw [inv_sizes e2, hs]
    · show rs.any srHasDeletions = _; rw [inv_hasDel e2, hs, zero_add_fun]
  match rs with
  | [] => exact ⟨_, rfl, hmany⟩
  | [r] => exact ⟨_, rfl, hs, e2⟩
  | _ :: _ :: _ => exact ⟨_, rfl, hmany⟩

theorem delStep_spec {sizes : List Nat} {now saved : Nat → Bool} {w : DelW} (h : ROK sizes now saved w) (op : DelOp) (hop : ∀ d, op = .isDeleted d → d < sizes.sum) :
    ∃ w', delStep w op = .ok (w', (DelSt.step sizes.sum ⟨now, saved⟩ op).2) ∧ ROK sizes (DelSt.step sizes.sum ⟨now, saved⟩ op).1.now (DelSt.step sizes.sum ⟨now, saved⟩ op).1.saved w' := by
  obtain ⟨rd, ss⟩ := w
  obtain ⟨hs, h⟩ := h
  have hcommit : ∃ x, rdCommit rd ss = .ok x ∧ ROK sizes now now ⟨x.1, x.2⟩ ∧ SavedAll now 0 x.2 := by
    cases rd with
    | one r =>
      cases ss with
      | nil => exact h.elim
      | cons s ss =>
        obtain ⟨h1, h2⟩ := h
        cases ss with
        | cons => exact h2.elim
        | nil =>
          obtain ⟨x, e1, e2, -, -⟩ := seg_commit h1
          simp only [rdCommit]
          rw [e1, Res.ok_bind]
          exact ⟨_, rfl, ⟨hs, e2, trivial⟩, e2.saved, trivial⟩
    | many m =>
      obtain ⟨h1, h2, h3, h4, h5, h6⟩ := h
      simp only [rdCommit]
      by_cases hc : m.changes = true
      · rw [if_pos hc]
        obtain ⟨y, g1, g2, g3, g4, g5, g6⟩ := inv_commit h1
        rw [g1, Res.ok_bind]
        refine ⟨_, rfl, ⟨g3.trans hs, g2, h2, h3, h4, h5, fun _ => g5⟩, inv_saved g2⟩
      · rw [if_neg hc]
        have hc' : m.changes = false := by simpa using hc
        have hall := h6 hc'
        have hinv : Inv26 now now 0 m.subs ss := by
          have : ∀ (rs : List SegR) (ss : List SegDir) (k : Nat), (∀ r ∈ rs, r.changes = false) → Inv26 now saved k rs ss → Inv26 now now k rs ss := by
            intro rs
            induction rs with
            | nil => intro ss k _ hh; cases ss with
              | nil => trivial
              | cons => exact hh.elim
            | cons r rs ih => intro ss k hr hh; cases ss with
              | nil => exact hh.elim
              | cons s ss =>
                obtain ⟨u, v⟩ := hh.1.changes (hr r List.mem_cons_self)
                exact ⟨segOK_congr hh.1 (fun _ _ => rfl) fun j hj => (hh.1.clean u v j hj).symm, ih ss _ (fun r' hr' => hr r' (List.mem_cons_of_mem _ hr')) hh.2⟩
          exact this _ _ _ hall h1
        exact ⟨_, rfl, ⟨hs, hinv, h2, h3, h4, h5, h6⟩, inv_saved hinv⟩
  have hone : ∀ {r : SegR}, Inv26 now saved 0 [r] ss → ∃ s, ss = [s] ∧ SegOK now saved r s ∧ r.size = sizes.sum ∧ s.size = sizes.sum := by
    intro r h
    cases ss with
    | nil => exact h.elim
    | cons s ss =>
      cases ss with
      | cons => exact h.2.elim
      | nil =>
        have e := h.1
        rw [zero_add_fun, zero_add_fun] at e
        refine ⟨s, rfl, e, ?_, ?_⟩
        · rw [e.size, ← hs]; simp
        · rw [← hs]; simp
  cases op with
  | delete d =>
    show ∃ w', delStep ⟨rd, ss⟩ (.delete d) = .ok (w', .done) ∧ ROK sizes (fun j => now j || (decide ((j : Int) = d) && decide (j < sizes.sum))) saved w'
    have hmax : rdMaxDoc rd = sizes.sum := by
      cases rd with
      | one r => obtain ⟨s, -, -, e, -⟩ := hone h; exact e
      | many m => exact h.2.2.1
    simp only [delStep, rdDelete]
    rw [hmax]
    by_cases hin : 0 ≤ d ∧ d < sizes.sum
    · rw [if_pos hin]
      obtain ⟨k, rfl⟩ : ∃ k : Nat, d = k := ⟨d.toNat, by omega⟩
      have hk : k < sizes.sum := by omega
      have hfun : (fun j => now j || (decide ((j : Int) = (k : Int)) && decide (j < sizes.sum))) = fun j => now j || decide (j = 0 + k) := by
        funext j
        by_cases hj : j = k
        · subst hj; simp [hk]
        · have : ¬ ((j : Int) = (k : Int)) := by omega
          simp [hj, this]
      rw [hfun]
      cases rd with
      | one r =>
        obtain ⟨s, rfl, e1, e2, e3⟩ := hone h
        obtain ⟨r0, g1, -, r', g3, g4⟩ := inv_at (d := k) (i := 0) (o := k) h (by simp only [List.map_cons, List.map_nil]; unfold whichSegment; rw [if_pos (by omega)])
        simp only [List.getElem?_cons_zero, Option.some.injEq] at g1
        subst g1
        dsimp only
        rw [g3]
        simp only [Res.ok_bind]
        exact ⟨_, rfl, hs, g4⟩
      | many m =>
        obtain ⟨h1, h2, h3, h4, h5, h6⟩ := h
        dsimp only
        unfold mrDelete
        obtain ⟨i, o, k1, k2⟩ := locate_spec sizes k hk
        have hl : m.subs.length = sizes.length := by
          have := congrArg List.length (inv_sizes h1)
          rw [hs] at this
          simpa using this
        rw [h2, hl, k2, Res.ok_bind]
        obtain ⟨r, g1, -, r', g3, g4⟩ := inv_at h1 (hs ▸ k1)
        dsimp only
        rw [g1]
        dsimp only
        rw [g3]
        simp only [Res.ok_bind]
        refine ⟨_, rfl, hs, g4, rfl, h3, Or.inl rfl, ?_, (fun hh => nomatch hh)⟩
        symm
        rw [any_range]
        exact ⟨k, hk, by simp⟩
    · rw [if_neg hin]
      have hfun : (fun j => now j || (decide ((j : Int) = d) && decide (j < sizes.sum))) = now := by
        funext j
        by_cases hj : (j : Int) = d
        · have : ¬ j < sizes.sum := by omega
          simp [this]
        · simp [hj]
      rw [hfun]
      exact ⟨_, rfl, hs, h⟩
  | undeleteAll =>
    cases rd with
    | one r => exact ⟨_, rfl, hs, inv_undelete h⟩
    | many m =>
      obtain ⟨h1, h2, h3, h4, h5, h6⟩ := h
      refine ⟨_, rfl, hs, inv_undelete h1, h2, h3, Or.inl rfl, ?_, (fun hh => nomatch hh)⟩
      show false = _
      rw [Bool.eq_iff_iff, any_range]
      exact ⟨(fun hh => nomatch hh), fun ⟨_, _, hh⟩ => nomatch hh⟩
  | commit =>
    obtain ⟨x, e1, e2, -⟩ := hcommit
    simp only [delStep]
    rw [e1, Res.ok_bind]
    exact ⟨_, rfl, e2⟩
  | reopen =>
    obtain ⟨x, e1, e2, e3⟩ := hcommit
    obtain ⟨r, g1, g2⟩ := rok_open e2.1 e3
    simp only [delStep]
    rw [e1, Res.ok_bind, g1, Res.ok_bind]
    exact ⟨_, rfl, g2⟩
  | torn k =>
    have : ∃ ss', rdTorn k rd ss = .ok ss' ∧ SavedAll saved 0 ss' ∧ ss'.map (·.size) = sizes := by
      cases rd with
      | one r =>
        obtain ⟨y, g1, g2, g3⟩ := inv_torn (k := k) h
        simp only [rdTorn]
        rw [g1, Res.ok_bind]
        exact ⟨_, rfl, g2, g3.trans hs⟩
      | many m =>
        simp only [rdTorn]
        by_cases hc : m.changes = true
        · rw [if_pos hc]
          obtain ⟨y, g1, g2, g3⟩ := inv_torn (k := k) h.1
          rw [g1, Res.ok_bind]
          exact ⟨_, rfl, g2, g3.trans hs⟩
        · rw [if_neg hc]
          exact ⟨_, rfl, inv_saved h.1, hs⟩
    obtain ⟨ss', e1, e2, e3⟩ := this
    obtain ⟨r, g1, g2⟩ := rok_open e3 e2
    simp only [delStep]
    rw [e1, Res.ok_bind, g1, Res.ok_bind]
    exact ⟨_, rfl, g2⟩
  | isDeleted d =>
    have hd := hop d rfl
    show ∃ w', delStep ⟨rd, ss⟩ (.isDeleted d) = .ok (w', .flag (now d)) ∧ ROK sizes now saved w'
    have hr : rdIsDeleted rd d = .ok (now d) := by
      cases rd with
      | one r =>
        obtain ⟨s, rfl, e1, e2, e3⟩ := hone h
        exact seg_isDeleted e1 (by omega)
      | many m =>
        obtain ⟨h1, h2, -⟩ := h
        simp only [rdIsDeleted, mrIsDeleted]
        obtain ⟨i, o, k1, k2⟩ := locate_spec sizes d hd
        have hl : m.subs.length = sizes.length := by
          have := congrArg List.length (inv_sizes h1)
          rw [hs] at this
          simpa using this
        obtain ⟨r, g1, g2, -⟩ := inv_at h1 (hs ▸ k1)
        rw [h2, hl, k2, Res.ok_bind]
        dsimp only
        rw [g1]
        dsimp only
        rw [g2, Nat.zero_add]
    simp only [delStep]
    rw [hr, Res.ok_bind]
    exact ⟨_, rfl, hs, h⟩
  | numDocs =>
    show ∃ w', delStep ⟨rd, ss⟩ .numDocs = .ok (w', .count ((sizes.sum : Int) - (cnt now sizes.sum : Nat))) ∧ ROK sizes now saved w'
    cases rd with
    | one r =>
      obtain ⟨s, rfl, e1, e2, e3⟩ := hone h
      have := seg_numDocs e1
      rw [e3] at this
      simp only [delStep, rdNumDocs]
      rw [this]
      exact ⟨_, rfl, hs, h⟩
    | many m =>
      obtain ⟨h1, h2, h3, h4, h5, h6⟩ := h
      have hn := inv_numDocs h1
      rw [hs, zero_add_fun] at hn
      have hkey : ∃ m', mrNumDocs m = (m', (sizes.sum : Int) - (cnt now sizes.sum : Nat)) ∧ ROK sizes now saved ⟨.many m', ss⟩ := by
        unfold mrNumDocs
        by_cases hc : m.cache = -1
        · rw [if_pos hc]
          dsimp only
          rw [hn]
          refine ⟨{ m with cache := _ }, rfl, ?_⟩
          exact ⟨hs, h1, h2, h3, Or.inr rfl, h5, h6⟩
        · rw [if_neg hc]
          have := h4.resolve_left hc
          exact ⟨m, by rw [this], hs, h1, h2, h3, h4, h5, h6⟩
      obtain ⟨m', e1, e2⟩ := hkey
      simp only [delStep, rdNumDocs]
      rw [e1]
      exact ⟨_, rfl, e2⟩
  | hasDeletions =>
    show ∃ w', delStep ⟨rd, ss⟩ .hasDeletions = .ok (w', .flag ((List.range sizes.sum).any now)) ∧ ROK sizes now saved w'
    have hr : rdHasDeletions rd = (List.range sizes.sum).any now := by
      cases rd with
      | one r => obtain ⟨s, rfl, e1, e2, e3⟩ := hone h; rw [← e3]; exact seg_hasDel e1
      | many m => exact h.2.2.2.2.1
    simp only [delStep]
    rw [hr]
    exact ⟨_, rfl, hs, h⟩

theorem delRun_spec {sizes : List Nat} : ∀ (ops : List DelOp) {now saved : Nat → Bool} {w : DelW}, ROK sizes now saved w → (∀ d, .isDeleted d ∈ ops → d < sizes.sum) →
    delRun w ops = .ok (DelSt.run sizes.sum ⟨now, saved⟩ ops) := by
  intro ops
  induction ops with
  | nil => intro now saved w _ _; rfl
  | cons op ops ih =>
    intro now saved w h hops
    obtain ⟨w', e1, e2⟩ := delStep_spec h op fun d hd => hops d (hd ▸ List.mem_cons_self)
    unfold delRun DelSt.run
    rw [e1, Res.ok_bind, ih e2 fun d hd => hops d (List.mem_cons_of_mem _ hd)]
    rfl

theorem rok_fresh (sizes : List Nat) (hs : ∀ n ∈ sizes, n < 2 ^ 31) : ∃ r, rdOpen (freshDir sizes) = .ok r ∧ ROK sizes (fun _ => false) (fun _ => false) ⟨r, freshDir sizes⟩ := by
  have hsz : (freshDir sizes).map (·.size) = sizes := by
    unfold freshDir
    rw [List.map_map]
    exact List.map_id'' (fun _ => rfl) _
  have hsaved : ∀ (l : List Nat) (m : Nat), (∀ n ∈ l, n < 2 ^ 31) → SavedAll (fun _ => false) m (freshDir l) := by
    intro l
    induction l with
    | nil => intro m _; trivial
    | cons n l ih =>
      intro m hl
      exact ⟨⟨hl n List.mem_cons_self, Int.le_refl _, fun _ _ _ => rfl, fun hh => absurd hh (show ¬ (0 : Int) ≤ -1 by decide)⟩, ih _ fun n hn => hl n (List.mem_cons_of_mem _ hn)⟩
  exact rok_open hsz (hsaved sizes 0 hs)

/-- **C26.** For an index with segments of any sizes and every history of deletions, undeletions, commits, closings and
reopenings, and crashes during a commit: whether a document is deleted, the number of documents and whether there are
deletions are as the deletions since the last undeletion say; a commit saves them and a crash before its end loses
them. -/
theorem c26_deletions (sizes : List Nat) (hs : ∀ n ∈ sizes, n < 2 ^ 31) (ops : List DelOp) (hops : ∀ d, .isDeleted d ∈ ops → d < sizes.sum) :
    ∃ r, rdOpen (freshDir sizes) = .ok r ∧ delRun ⟨r, freshDir sizes⟩ ops = .ok (DelSt.run sizes.sum ⟨fun _ => false, fun _ => false⟩ ops) := by
  obtain ⟨r, e1, e2⟩ := rok_fresh sizes hs
  exact ⟨r, e1, delRun_spec ops e2 hops⟩

/-- Two segments; a history with all operations. -/
def hist26 : List DelOp :=
  [.delete 1, .delete 4, .delete 1, .delete 9, .delete (-1), .numDocs, .isDeleted 4, .commit, .undeleteAll, .hasDeletions, .delete 0, .numDocs, .torn 1, .isDeleted 1, .isDeleted 0, .numDocs,
   .undeleteAll, .reopen, .numDocs, .delete 2, .reopen, .isDeleted 2, .hasDeletions, .numDocs]

example : (∀ n ∈ [3, 2], n < 2 ^ 31) ∧ (∀ d, .isDeleted d ∈ hist26 → d < [3, 2].sum) := by
  refine ⟨by decide, fun d hd => ?_⟩
  simp only [hist26, List.mem_cons, List.not_mem_nil, reduceCtorEq, DelOp.isDeleted.injEq, or_false, false_or] at hd
  simp only [List.sum_cons, List.sum_nil]
  omega

example : (rdOpen (freshDir [3, 2]) >>= fun r => delRun ⟨r, freshDir [3, 2]⟩ hist26) =
    .ok [.done, .done, .done, .done, .done, .count 3, .flag true, .done, .done, .flag false, .done, .count 4, .done, .flag true, .flag false, .count 3,
      .done, .done, .count 5, .done, .done, .flag true, .flag true, .count 4] := by
  decide +kernel

/-! ### Enumerators -/

/-- The reader after a history. -/
def delExec : DelW → List DelOp → Res DelW
  | w, [] => .ok w
  | w, op :: ops => delStep w op >>= fun r => delExec r.1 ops

/-- The deleted documents after a history. -/
def deadAfter (max : Nat) : DelSt → List DelOp → Nat → Bool
  | s, [] => s.now
  | s, op :: ops => deadAfter max (s.step max op).1 ops

/-- The readers of the segments. -/
def segReaders : IR → List SegR
  | .one r => [r]
  | .many m => m.subs

theorem delExec_spec {sizes : List Nat} : ∀ (ops : List DelOp) {now saved : Nat → Bool} {w : DelW}, ROK sizes now saved w → (∀ d, .isDeleted d ∈ ops → d < sizes.sum) →
    ∃ w' saved', delExec w ops = .ok w' ∧ ROK sizes (deadAfter sizes.sum ⟨now, saved⟩ ops) saved' w' := by
  intro ops
  induction ops with
  | nil => intro now saved w h _; exact ⟨w, saved, rfl, h⟩
  | cons op ops ih =>
    intro now saved w h hops
    obtain ⟨w', e1, e2⟩ := delStep_spec h op fun d hd => hops d (hd ▸ List.mem_cons_self)
    obtain ⟨w'', saved', e3, e4⟩ := ih e2 fun d hd => hops d (List.mem_cons_of_mem _ hd)
    exact ⟨w'', saved', by unfold delExec; rw [e1, Res.ok_bind, e3], e4⟩

theorem inv_nth {now saved : Nat → Bool} : ∀ {rs ss} {m i : Nat} {r : SegR}, Inv26 now saved m rs ss → rs[i]? = some r →
    ∃ s, ss[i]? = some s ∧ SegOK (fun j => now (m + ((ss.map (·.size)).take i).sum + j)) (fun j => saved (m + ((ss.map (·.size)).take i).sum + j)) r s := by
  intro rs
  induction rs with
  | nil => intro ss m i r h hi; cases hi
  | cons r rs ih =>
    intro ss m i r' h hi
    cases ss with
    | nil => exact h.elim
    | cons s ss =>
      cases i with
      | zero => cases hi; exact ⟨s, rfl, by simpa using h.1⟩
      | succ i =>
        obtain ⟨s', g1, g2⟩ := ih h.2 hi
        refine ⟨s', g1, ?_⟩
        simp only [List.map_cons, List.take_succ_cons, List.sum_cons]
        rw [← Nat.add_assoc]
        exact g2

/-- **C26, enumerators.** After any history, enumerators of documents or positions opened on the reader of any segment
show, through any session, what C22 says with the documents deleted that the history has deleted: never one of them. -/
theorem c26_enumerators (sizes : List Nat) (hs : ∀ n ∈ sizes, n < 2 ^ 31) (ops : List DelOp) (hops : ∀ d, .isDeleted d ∈ ops → d < sizes.sum) :
    ∃ r w, rdOpen (freshDir sizes) = .ok r ∧ delExec ⟨r, freshDir sizes⟩ ops = .ok w ∧ (segReaders w.rd).length = sizes.length ∧
      ∀ (i n : Nat) (sr : SegR), sizes[i]? = some n → (segReaders w.rd)[i]? = some sr →
      ∀ (ii si : Nat) (fields : List (Nat × List (Expand.Term × List Post.Posting))), Segment ii si fields → 0 < si → (∀ x ∈ fields, ∀ y ∈ x.2, ∀ p ∈ y.2, p.doc < n) →
      ∃ fs, Post.flush ii si fields = .ok fs ∧ (fs.dict.tis.length < 2 ^ 64 → fs.dict.tix.length < 2 ^ 64 →
        ∃ sfi, Dict.sfiOpen fs.dict = .ok sfi ∧ ∀ (isPos : Bool) (pops : List PostOp), (∀ op ∈ pops, usable si isPos op = true) →
          postRun sfi fs.dict.tis ⟨Dict.tirOpen, Post.stdeNew isPos sfi.skipInterval sr.del fs.frq fs.prx⟩ pops =
            .ok (PCur.run fields (fun d => decide (d < n) && deadAfter sizes.sum ⟨fun _ => false, fun _ => false⟩ ops ((sizes.take i).sum + d)) ⟨[], []⟩ pops)) := by
  obtain ⟨r, e1, e2⟩ := rok_fresh sizes hs
  obtain ⟨w, saved, e3, hsz, e4⟩ := delExec_spec ops e2 hops
  have hinv : Inv26 (deadAfter sizes.sum ⟨fun _ => false, fun _ => false⟩ ops) saved 0 (segReaders w.rd) w.ss := by
    obtain ⟨rd, ss⟩ := w
    cases rd with
    | one r => exact e4
    | many m => exact e4.1
  have hlen : (segReaders w.rd).length = sizes.length := by
    have := congrArg List.length (inv_sizes hinv)
    rw [hsz] at this
    simpa using this
  refine ⟨r, w, e1, e3, hlen, fun i n sr hn hsr ii si fields h hsi _ => ?_⟩
  obtain ⟨s, k1, k2⟩ := inv_nth hinv hsr
  rw [hsz, Nat.zero_add] at k2
  have hns : s.size = n := by
    have : (w.ss.map (·.size))[i]? = some s.size := by rw [List.getElem?_map, k1]; rfl
    rw [hsz, hn] at this
    exact (Option.some.inj this).symm
  obtain ⟨fs, c1, c2⟩ := c22_session_partial ii si fields h hsi
  refine ⟨fs, c1, fun l1 l2 => ?_⟩
  obtain ⟨sfi, c3, c4⟩ := c2 l1 l2
  refine ⟨sfi, c3, fun isPos ops hops => c4 isPos sr.del _ ?_ ops hops⟩
  intro d
  have hm := k2.marks
  rw [hns] at hm
  cases hd : sr.del with
  | none =>
    rw [hd] at hm
    dsimp only
    by_cases hj : d < n
    · simp [hj, hm d hj]
    · simp [hj]
  | some bv => rw [hd] at hm; exact hm.1.get d

/-- The second document of the second segment is deleted; the postings are in that segment. -/
example : deadAfter 5 ⟨fun _ => false, fun _ => false⟩ [.delete 4, .commit] (([3, 2].take 1).sum + 1) = true ∧
    (∀ x ∈ [(1, [(([97] : Expand.Term), [(⟨0, 1, [7]⟩ : Post.Posting), ⟨1, 1, [8]⟩])])], ∀ y ∈ x.2, ∀ p ∈ y.2, p.doc < 2) := by
  decide +kernel

/-! ### Where the code falls short -/

/-- A reader made of other readers (mr_open) keeps the number of documents it has once computed: deleting through one of
the readers it was made of is not seen. Here 4 documents are left and 5 are reported. -/
theorem c26_shared_subreader_stale :
    ∃ a b : SegR, ∃ a' : SegR, srDelete a 0 = .ok a' ∧
      let m := (mrNumDocs (mrNew [a, b])).1
      (mrNumDocs { m with subs := [a', b] }).2 = 5 ∧ (mrNumDocs (mrNew [a', b])).2 = 4 :=
  ⟨⟨3, none, false, false, false, -1⟩, ⟨2, none, false, false, false, -1⟩, _, rfl, by decide +kernel⟩

#print axioms c26_deletions
#print axioms c26_enumerators
#print axioms c26_shared_subreader_stale
end Ferret.Props
