import Verif.Model.Ind

/-! Lemmas about an Index. -/

namespace Ferret.Ind
open Ferret.Spec

variable {α K V : Type}

local macro "tr" : term => `(by first | rfl | trivial)

/-! ### Lists of documents -/

theorem numberedFrom_append (i : Nat) (a b : List (α × Bool)) :
    numberedFrom i (a ++ b) = numberedFrom i a ++ numberedFrom (i + a.length) b := by
  induction a generalizing i with
  | nil => simp [numberedFrom]
  | cons x a ih =>
    obtain ⟨d, del⟩ := x
    cases del <;> simp [numberedFrom, ih, Nat.add_comm, Nat.add_left_comm]

theorem numberedFrom_new (i : Nat) (b : List α) : (numberedFrom i (b.map (·, false))).map (·.2) = b := by
  induction b generalizing i with
  | nil => rfl
  | cons x b ih => simp [numberedFrom, ih]

theorem live_new (a : List (α × Bool)) (b : List α) : live (a ++ b.map (·, false)) = live a ++ b := by
  simp only [live, numbered, numberedFrom_append, List.map_append, numberedFrom_new]

theorem numberedFrom_ge {i : Nat} {l : List (α × Bool)} {x} (h : x ∈ numberedFrom i l) : i ≤ x.1 ∧ x.1 < i + l.length := by
  induction l generalizing i with
  | nil => cases h
  | cons y l ih =>
    obtain ⟨d, del⟩ := y
    cases del
    · simp only [numberedFrom, List.mem_cons] at h
      rcases h with rfl | h
      · simp
      · have := ih h; simp; omega
    · have := ih h; simp; omega

theorem numberedFrom_lt {i : Nat} {l : List (α × Bool)} : (numberedFrom i l).Pairwise (fun a b => a.1 < b.1) := by
  induction l generalizing i with
  | nil => exact .nil
  | cons y l ih =>
    obtain ⟨d, del⟩ := y
    cases del
    · exact .cons (fun x hx => by have := (numberedFrom_ge hx).1; omega) ih
    · exact ih

/-- The document with number `n` is deleted. -/
abbrev mark (n : Nat) (l : List (α × Bool)) : List (α × Bool) := l.modify n fun x => (x.1, true)

theorem numberedFrom_mark (i n : Nat) (l : List (α × Bool)) :
    numberedFrom i (mark n l) = (numberedFrom i l).filter (fun x => x.1 != i + n) := by
  induction l generalizing i n with
  | nil => simp [mark, numberedFrom]
  | cons y l ih =>
    have keep : (numberedFrom (i + 1) l).filter (fun x => x.1 != i) = numberedFrom (i + 1) l := by
      rw [List.filter_eq_self]
      intro x hx
      have := (numberedFrom_ge hx).1
      simp; omega
    obtain ⟨d, del⟩ := y
    cases n with
    | zero => cases del <;> simp [mark, numberedFrom, keep]
    | succ n =>
      have h := ih (i + 1) n
      have e : i + 1 + n = i + (n + 1) := by omega
      rw [e] at h
      cases del <;> simp [mark, numberedFrom] at h ⊢ <;> exact h

theorem numbered_mark (n : Nat) (l : List (α × Bool)) :
    numbered (mark n l) = (numbered l).filter (fun x => x.1 != n) := by
  have := numberedFrom_mark 0 n l
  simpa [numbered] using this

theorem numbered_marks (ns : List Nat) (l : List (α × Bool)) :
    numbered (ns.foldl (fun l n => mark n l) l) = (numbered l).filter (fun x => !ns.contains x.1) := by
  induction ns generalizing l with
  | nil => rw [List.foldl_nil]; exact (List.filter_eq_self.2 fun _ _ => rfl).symm
  | cons n ns ih =>
    rw [List.foldl_cons, ih, numbered_mark, List.filter_filter]
    congr 1
    funext x
    rw [List.contains_cons]
    cases ns.contains x.1 <;> cases h : (x.1 == n) <;> simp [bne, h]

/-- Deleting the documents that a search gives. -/
theorem live_hits (p : α → Bool) (l : List (α × Bool)) :
    live ((((numbered l).filter fun x => p x.2).map (·.1)).foldl (fun l n => mark n l) l) = (live l).filter (fun x => !p x) := by
  unfold live
  rw [numbered_marks, List.filter_map]
  congr 1
  apply List.filter_congr
  intro x hx
  show (!_) = !p x.2
  congr 1
  rw [Bool.eq_iff_iff, List.contains_iff_mem]
  constructor
  · intro h
    obtain ⟨y, hy, e⟩ := List.mem_map.1 h
    obtain ⟨hy, hp⟩ := List.mem_filter.1 hy
    have : y = x := by
      have pw := numberedFrom_lt (i := 0) (l := l)
      obtain ⟨a, ha, ea⟩ := List.mem_iff_getElem.1 hy
      obtain ⟨b, hb, eb⟩ := List.mem_iff_getElem.1 hx
      have pw := List.pairwise_iff_getElem.1 pw
      by_cases hab : a = b
      · subst hab; rw [← ea, ← eb]
      · rcases Nat.lt_or_gt_of_ne hab with h | h
        · have := pw a b ha hb h
          have e1 : ((numbered l)[a]).1 < ((numbered l)[b]).1 := this
          rw [ea, eb] at e1; omega
        · have := pw b a hb ha h
          have e1 : ((numbered l)[b]).1 < ((numbered l)[a]).1 := this
          rw [ea, eb] at e1; omega
    subst this
    exact hp
  · intro h
    exact List.mem_map.2 ⟨x, List.mem_filter.2 ⟨hx, h⟩, rfl⟩

theorem live_one {n : Nat} {p : α → Bool} {l : List (α × Bool)} (h : ((numbered l).filter fun x => p x.2).map (·.1) = [n]) :
    live (mark n l) = (live l).filter (fun x => !p x) := by
  have := live_hits p l
  rwa [h] at this

theorem length_hits (p : α → Bool) (l : List (α × Bool)) :
    (((numbered l).filter fun x => p x.2).map (·.1)).length = ((live l).filter p).length := by
  unfold live
  rw [List.filter_map]
  simp [Function.comp_def]

theorem live_none {p : α → Bool} {l : List (α × Bool)} (h : ((numbered l).filter fun x => p x.2).map (·.1) = []) :
    (live l).filter (fun x => !p x) = live l := by
  rw [List.filter_eq_self]
  intro x hx
  have : ((live l).filter p).length = 0 := by rw [← length_hits, h]; rfl
  have := List.length_eq_zero_iff.1 this
  have := List.filter_eq_nil_iff.1 this x hx
  simpa using this

/-! ### The invariant -/

/-- What reading shows now: committed documents, those in memory, and deletions of the reader. -/
def contents (s : Ix α) : List α :=
  match s.iw, s.ir with
  | some w, _ => live s.disk.docs ++ w.buf
  | none, some r => if r.changes then live r.com.docs else live s.disk.docs
  | none, none => live s.disk.docs

/-- `multi`: others may commit; `old`: the reader may be out of date. -/
structure Inv (multi old : Bool) (s : Ix α) : Prop where
  one : s.ir = none ∨ s.iw = none
  wr : ∀ w, s.iw = some w → w.com = s.disk ∧ w.ver = s.ver ∧ s.file = true ∧ s.other = none
  oth : ∀ v, s.other = some v → v = s.ver ∧ s.file = true
  file : s.file = true → s.iw.isSome ∨ s.other.isSome ∨ ∃ r, s.ir = some r ∧ r.changes = true
  stale : ∀ r, s.ir = some r → r.stale = false
  lock : ∀ r, s.ir = some r → r.lock = r.changes
  chg : ∀ r, s.ir = some r → r.changes = true → r.ver = s.ver ∧ s.file = true ∧ s.other = none
  same : ∀ r, s.ir = some r → r.changes = false → (r.ver = s.ver ∧ r.com = s.disk) ∨ r.ver < s.ver
  fresh : ∀ r, s.ir = some r → multi = false ∨ old = false → r.ver = s.ver
  segs : ∀ r, s.ir = some r → multi = true → r.com.segs ≠ 0
  disk : multi = true → s.disk.segs ≠ 0
  look : multi = true → s.checkLatest = true

/-- The invariant and the contents. -/
structure St (multi old : Bool) (c : List α) (s : Ix α) : Prop where
  inv : Inv multi old s
  con : contents s = c

theorem Inv.weaken {m o : Bool} {s : Ix α} (h : Inv m false s) : Inv m o s :=
  { h with fresh := fun r hr _ => h.fresh r hr (.inr rfl) }

theorem contents_reader {s : Ix α} {m : Bool} (h : Inv m false s) {r} (hr : s.ir = some r) : live r.com.docs = contents s := by
  have hw : s.iw = none := h.one.resolve_left (by rw [hr]; exact fun e => nomatch e)
  unfold contents
  rw [hr, hw]
  cases hc : r.changes
  · have e := h.fresh r hr (.inr rfl)
    simp [((h.same r hr hc).resolve_right (by omega)).2, hc]
  · simp [hc]

theorem irCommit_spec {m o : Bool} {c : List α} {s : Ix α} (h : St m o c s) :
    St m o c (irCommit s) ∧ ((irCommit s).iw = s.iw) ∧ ((irCommit s).ir.isSome = s.ir.isSome) ∧
      (∀ r, (irCommit s).ir = some r → r.changes = false) ∧ (irCommit s).autoFlush = s.autoFlush := by
  obtain ⟨h, hc⟩ := h
  unfold irCommit
  cases hr : s.ir with
  | none => exact ⟨⟨h, hc⟩, rfl, by simp [hr], by simp [hr], rfl⟩
  | some r =>
    cases hg : r.changes with
    | false => simp only [hg, Bool.false_eq_true, if_false]; exact ⟨⟨h, hc⟩, tr, by simp [hr], by rw [hr]; rintro _ ⟨⟩; exact hg, tr⟩
    | true =>
      obtain ⟨h1, h2, h3⟩ := h.chg r hr hg
      have hw : s.iw = none := h.one.resolve_left (by rw [hr]; exact fun e => nomatch e)
      have hl : r.lock = true := by rw [h.lock r hr, hg]
      simp only [if_true, hl, hg]
      refine ⟨⟨⟨.inr hw, ?_, ?_, ?_, ?_, ?_, ?_, ?_, ?_, ?_, ?_, ?_⟩, ?_⟩, tr, tr, ?_, tr⟩
      · intro w e; simp [hw] at e
      · intro v e; simp [h3] at e
      · intro e; simp at e
      · rintro _ ⟨⟩; exact h.stale r hr
      · rintro _ ⟨⟩; rfl
      · rintro _ ⟨⟩ e; simp at e
      · rintro _ ⟨⟩ _; exact .inl ⟨rfl, rfl⟩
      · rintro _ ⟨⟩ _; rfl
      · rintro _ ⟨⟩; exact h.segs r hr
      · exact h.segs r hr
      · exact h.look
      · rw [← hc]; simp [contents, hr, hw, hg]
      · rintro _ ⟨⟩; rfl

theorem closeReader_spec {m o : Bool} {c : List α} {s : Ix α} (h : St m o c s) :
    St m false c (closeReader s) ∧ (closeReader s).iw = s.iw ∧ (closeReader s).ir = none ∧ (closeReader s).autoFlush = s.autoFlush := by
  obtain ⟨⟨h, hc⟩, hw, hi, hg, ha⟩ := irCommit_spec h
  unfold closeReader
  generalize irCommit s = t at *
  refine ⟨⟨⟨.inl rfl, h.wr, h.oth, ?_, ?_, ?_, ?_, ?_, ?_, ?_, h.disk, h.look⟩, ?_⟩, hw, rfl, ha⟩
  · intro e
    rcases h.file e with h | h | ⟨r, h1, h2⟩
    · exact .inl h
    · exact .inr (.inl h)
    · rw [hg r h1] at h2; cases h2
  all_goals first | (intro r e; simp at e; done) | skip
  rw [← hc]
  unfold contents
  cases hw' : t.iw with
  | some w => rfl
  | none =>
    cases hr : t.ir with
    | none => rfl
    | some r => simp [hg r hr]

theorem openReader_spec {m : Bool} {c : List α} {s : Ix α} (h : St m false c s) (hw : s.iw = none) (hr : s.ir = none) :
    St m false c (openReader s) ∧ (openReader s).iw = none ∧ (openReader s).ir.isSome ∧ (openReader s).autoFlush = s.autoFlush := by
  obtain ⟨h, hc⟩ := h
  unfold openReader
  refine ⟨⟨⟨.inr hw, h.wr, h.oth, ?_, ?_, ?_, ?_, ?_, ?_, ?_, h.disk, h.look⟩, ?_⟩, hw, rfl, rfl⟩
  · intro e
    rcases h.file e with h | h | ⟨r, h1, h2⟩
    · exact .inl h
    · exact .inr (.inl h)
    · rw [hr] at h1; cases h1
  · rintro _ ⟨⟩; rfl
  · rintro _ ⟨⟩; rfl
  · rintro _ ⟨⟩ e; simp at e
  · rintro _ ⟨⟩ _; exact .inl ⟨rfl, rfl⟩
  · rintro _ ⟨⟩ _; rfl
  · rintro _ ⟨⟩ hm; exact h.disk hm
  · rw [← hc]; simp [contents, hw, hr]

theorem iwCommit_spec {m o : Bool} {c : List α} {s : Ix α} {σ} (ht : Tidy σ) {w : Wr α} (h : Inv m o s) (hw0 : s.iw.isSome)
    (hw : w.com = s.disk ∧ w.ver = s.ver) (hc : live s.disk.docs ++ w.buf = c) :
    St m o c (iwCommit σ s w) ∧ (∃ w', (iwCommit σ s w).iw = some w' ∧ w'.buf = []) ∧ (iwCommit σ s w).ir = none ∧
      (iwCommit σ s w).autoFlush = s.autoFlush := by
  obtain ⟨w0, e0⟩ := Option.isSome_iff_exists.1 hw0
  obtain ⟨h1, h2, h3, h4⟩ := h.wr w0 e0
  have hr : s.ir = none := h.one.resolve_right (by rw [e0]; exact fun e => nomatch e)
  unfold iwCommit
  cases hb : w.buf with
  | nil =>
    simp only [List.isEmpty_nil, if_true]
    refine ⟨⟨⟨.inl hr, ?_, h.oth, ?_, h.stale, h.lock, h.chg, h.same, h.fresh, h.segs, h.disk, h.look⟩, ?_⟩, ⟨w, rfl, hb⟩, hr, tr⟩
    · rintro _ ⟨⟩; exact ⟨hw.1, hw.2, h3, h4⟩
    · intro _; exact .inl rfl
    · rw [← hc]; simp [contents, hb]
  | cons d b =>
    simp only [List.isEmpty_cons, Bool.false_eq_true, if_false]
    refine ⟨⟨⟨.inl hr, ?_, ?_, ?_, ?_, ?_, ?_, ?_, ?_, ?_, ?_, h.look⟩, ?_⟩, ⟨_, rfl, rfl⟩, hr, tr⟩
    · rintro _ ⟨⟩; exact ⟨rfl, rfl, h3, h4⟩
    · intro v e; simp [h4] at e
    · intro _; exact .inl rfl
    · intro r e; simp [hr] at e
    · intro r e; simp [hr] at e
    · intro r e; simp [hr] at e
    · intro r e; simp [hr] at e
    · intro r e; simp [hr] at e
    · intro r e; simp [hr] at e
    · intro _; exact ht.some_ _ (Nat.succ_ne_zero _)
    · rw [← hc]
      simp only [contents, List.append_nil]
      rw [ht.same]
      show live (w.com.docs ++ (d :: b).map (·, false)) = _
      rw [live_new, hw.1, hb]

theorem closeWriter_spec {m o : Bool} {c : List α} {s : Ix α} {σ} (ht : Tidy σ) (h : St m o c s) :
    St m o c (closeWriter σ s) ∧ (closeWriter σ s).iw = none ∧ (closeWriter σ s).ir = s.ir ∧
      (closeWriter σ s).autoFlush = s.autoFlush := by
  obtain ⟨h, hc⟩ := h
  unfold closeWriter
  cases hw : s.iw with
  | none => exact ⟨⟨h, hc⟩, hw, rfl, rfl⟩
  | some w =>
    have hr : s.ir = none := h.one.resolve_right (by rw [hw]; exact fun e => nomatch e)
    obtain ⟨h1, h2, h3, h4⟩ := h.wr w hw
    have hc' : live s.disk.docs ++ w.buf = c := by rw [← hc]; simp [contents, hw]
    obtain ⟨⟨g, gc⟩, ⟨w', e, eb⟩, gr, ga⟩ := iwCommit_spec ht h (by rw [hw]; rfl) ⟨h1, h2⟩ hc'
    simp only
    generalize iwCommit σ s w = t at *
    refine ⟨⟨⟨.inr rfl, ?_, ?_, ?_, g.stale, g.lock, ?_, g.same, g.fresh, g.segs, g.disk, g.look⟩, ?_⟩, tr, by rw [hr]; exact gr, ga⟩
    · intro w e; simp at e
    · intro v e'
      have := (g.wr w' e).2.2.2
      simp [this] at e'
    · intro e; simp at e
    · intro r e; simp [gr] at e
    · rw [← gc]; simp [contents, e, eb, gr]

theorem ensureReader_spec {m o : Bool} {c : List α} {s : Ix α} {σ} (ht : Tidy σ) (h : St m o c s) :
    St m false c (ensureReader σ s) ∧ (ensureReader σ s).iw = none ∧ (ensureReader σ s).ir.isSome ∧
      (ensureReader σ s).autoFlush = s.autoFlush := by
  unfold ensureReader
  cases hr : s.ir with
  | none =>
    obtain ⟨⟨g, gc⟩, gw, gr, ga⟩ := closeWriter_spec ht h
    rw [hr] at gr
    have g' : Inv m false (closeWriter σ s) := { g with fresh := fun r e => by rw [gr] at e; cases e }
    have := openReader_spec ⟨g', gc⟩ gw gr
    rw [ga] at this
    exact this
  | some r =>
    obtain ⟨h, hc⟩ := h
    have hw : s.iw = none := h.one.resolve_left (by rw [hr]; exact fun e => nomatch e)
    simp only
    split
    · obtain ⟨g, gw, gr, ga⟩ := closeReader_spec ⟨h, hc⟩
      have := openReader_spec g (gw.trans hw) gr
      rw [ga] at this
      exact this
    · rename_i hn
      refine ⟨⟨{ h with fresh := ?_ }, hc⟩, hw, by rw [hr]; rfl, rfl⟩
      intro r' e _
      rw [hr] at e; cases e
      cases m with
      | false => exact h.fresh r hr (.inl rfl)
      | true =>
        rw [h.look rfl] at hn
        simp [isLatest, h.segs r hr rfl] at hn
        exact hn.symm

theorem ensureWriter_spec {m o g : Bool} {c : List α} {s : Ix α} (h : St m o c s) :
    (St m false c (ensureWriter g s).1 ∧ (∃ w, (ensureWriter g s).1.iw = some w) ∧ (ensureWriter g s).2 = .ok () ∧
      (ensureWriter g s).1.autoFlush = s.autoFlush) ∨ (ensureWriter g s).2 = .raise .lock := by
  unfold ensureWriter
  cases hw : s.iw with
  | some w =>
    have hr : s.ir = none := h.inv.one.resolve_right (by rw [hw]; exact fun e => nomatch e)
    exact .inl ⟨⟨{ h.inv with fresh := fun r e => by rw [hr] at e; cases e }, h.con⟩, ⟨w, hw⟩, rfl, rfl⟩
  | none =>
    obtain ⟨⟨h, hc⟩, gw, gr, ga⟩ := closeReader_spec h
    simp only
    rw [hw] at gw
    generalize closeReader s = t at *
    cases hf : t.file with
    | true => exact .inr (by simp [hf])
    | false =>
      cases g with
      | true => exact .inr (by simp)
      | false =>
        simp only [Bool.false_and, Bool.false_eq_true, if_false, hf]
        have ho : t.other = none := by
          cases e : t.other with
          | none => rfl
          | some v => have := (h.oth v e).2; rw [hf] at this; cases this
        refine .inl ⟨⟨⟨.inl gr, ?_, ?_, ?_, h.stale, h.lock, ?_, h.same, h.fresh, h.segs, h.disk, h.look⟩, ?_⟩, ⟨_, tr⟩, tr, ga⟩
        · rintro _ ⟨⟩; exact ⟨rfl, rfl, rfl, ho⟩
        · intro v e; simp [ho] at e
        · intro _; exact .inl rfl
        · intro r e; simp [gr] at e
        · rw [← hc]; simp [contents, gw, gr]

/-- Deleting by number through an open reader that is up to date. -/
theorem irDelete_spec {m : Bool} {c : List α} {s : Ix α} {n : Nat} {r : Rd α} (h : St m false c s) (hr : s.ir = some r) :
    (∃ r', (irDelete n s).1.ir = some r' ∧ r'.com.docs = mark n r.com.docs ∧
      St m false (live (mark n r.com.docs)) (irDelete n s).1 ∧ (irDelete n s).2 = .ok () ∧ (irDelete n s).1.autoFlush = s.autoFlush) ∨
    (irDelete n s).2 = .raise .lock := by
  obtain ⟨h, hc⟩ := h
  have hw : s.iw = none := h.one.resolve_left (by rw [hr]; exact fun e => nomatch e)
  have hv := h.fresh r hr (.inr rfl)
  unfold irDelete
  rw [hr]
  simp only
  by_cases hn : n < r.com.docs.length
  · rw [if_pos hn, if_neg (by simp [h.stale r hr])]
    have key : ∀ f, (s.other = none) → f = true → St m false (live (mark n r.com.docs)) { s with file := f, ir := some { r with com := ⟨mark n r.com.docs, r.com.segs⟩, lock := true, changes := true } } := by
      rintro f ho rfl
      refine ⟨⟨.inr hw, ?_, ?_, ?_, ?_, ?_, ?_, ?_, ?_, ?_, h.disk, h.look⟩, ?_⟩
      · intro w e; simp [hw] at e
      · intro v e; simp [ho] at e
      · intro _; exact .inr (.inr ⟨_, rfl, rfl⟩)
      · rintro _ ⟨⟩; exact h.stale r hr
      · rintro _ ⟨⟩; rfl
      · rintro _ ⟨⟩ _; exact ⟨hv, rfl, ho⟩
      · rintro _ ⟨⟩ e; simp at e
      · rintro _ ⟨⟩ _; exact hv
      · rintro _ ⟨⟩; exact h.segs r hr
      · simp [contents, hw]
    cases hl : r.lock with
    | true =>
      have hg := (h.lock r hr).symm.trans hl
      obtain ⟨_, h2, h3⟩ := h.chg r hr hg
      simp only [if_true]
      have := key s.file h3 h2
      exact .inl ⟨_, rfl, rfl, this, tr, tr⟩
    | false =>
      cases hf : s.file with
      | true => exact .inr (by simp)
      | false =>
        have ho : s.other = none := by
          cases e : s.other with
          | none => rfl
          | some v => have := (h.oth v e).2; rw [hf] at this; cases this
        simp only [Bool.false_eq_true, if_false]
        rw [if_neg (by omega)]
        have := key true ho rfl
        exact .inl ⟨_, rfl, rfl, this, rfl, rfl⟩
  · rw [if_neg hn]
    have e : mark n r.com.docs = r.com.docs := List.modify_eq_self (by omega)
    refine .inl ⟨r, hr, e.symm, ?_, rfl, rfl⟩
    rw [e, contents_reader h hr]
    exact ⟨h, rfl⟩

theorem flushIr_spec {m o : Bool} {c : List α} {s : Ix α} (h : St m o c s) :
    St m o c (flushIr s) ∧ (flushIr s).ir.isSome = s.ir.isSome ∧ (flushIr s).autoFlush = s.autoFlush := by
  unfold flushIr
  split
  · obtain ⟨g, _, gi, _, ga⟩ := irCommit_spec h
    exact ⟨g, gi, ga⟩
  · exact ⟨h, rfl, rfl⟩

/-- Committing does not change the documents of the reader. -/
theorem irCommit_com {s : Ix α} {r : Rd α} (hr : s.ir = some r) : ∃ r', (irCommit s).ir = some r' ∧ r'.com = r.com := by
  unfold irCommit
  rw [hr]
  simp only
  split
  · exact ⟨_, rfl, rfl⟩
  · exact ⟨r, hr, rfl⟩

theorem deleteAll_spec {m : Bool} (f : Bool) (ns : List Nat) {c : List α} {s : Ix α} {r : Rd α} (h : St m false c s) (hr : s.ir = some r) :
    (∃ r', (deleteAll f ns s).1.ir = some r' ∧
      St m false (live (ns.foldl (fun l n => mark n l) r.com.docs)) (deleteAll f ns s).1 ∧ (deleteAll f ns s).2 = .ok ()) ∨
    (deleteAll f ns s).2 = .raise .lock := by
  induction ns generalizing c s r with
  | nil =>
    refine .inl ⟨r, hr, ?_, rfl⟩
    rw [List.foldl_nil, contents_reader h.inv hr]
    exact ⟨h.inv, rfl⟩
  | cons n ns ih =>
    simp only [deleteAll]
    rcases irDelete_spec (n := n) h hr with ⟨r', h1, h2, h3, h4, _⟩ | e
    · generalize hx : irDelete n s = x at *
      obtain ⟨t, y⟩ := x
      simp only at h1 h3 h4
      subst h4
      simp only [andThen, List.foldl_cons]
      cases f with
      | false =>
        simp only [Bool.false_eq_true, if_false]
        have := ih h3 h1
        rw [h2] at this
        exact this
      | true =>
        simp only [if_true]
        have h3' := (flushIr_spec h3).1
        obtain ⟨r'', h5, h6⟩ : ∃ r'', (flushIr t).ir = some r'' ∧ r''.com = r'.com := by
          unfold flushIr
          split
          · exact irCommit_com h1
          · exact ⟨r', h1, rfl⟩
        have := ih h3' h5
        rw [h6, h2] at this
        exact this
    · generalize irDelete n s = x at *
      obtain ⟨t, y⟩ := x
      simp only at e
      subst e
      exact .inr rfl

theorem hits_reader {p : α → Bool} {s : Ix α} {r : Rd α} (hr : s.ir = some r) :
    hits p s = ((numbered r.com.docs).filter fun x => p x.2).map (·.1) := by
  simp [hits, hr]

theorem iwDeleteTerm_spec {m o : Bool} {c : List α} {s : Ix α} {σ} {p : α → Bool} {known : List α → Bool} (ht : Tidy σ)
    (hk : ∀ l, (∃ d ∈ l, p d = true) → known l = true) (h : St m o c s) {w : Wr α} (hw : s.iw = some w) :
    St m o (c.filter (fun x => !p x)) (iwDeleteTerm p known σ s).1 ∧ (∃ w, (iwDeleteTerm p known σ s).1.iw = some w) ∧
      (iwDeleteTerm p known σ s).2 = .ok () ∧ (iwDeleteTerm p known σ s).1.autoFlush = s.autoFlush := by
  obtain ⟨h, hc⟩ := h
  obtain ⟨h1, h2, h3, h4⟩ := h.wr w hw
  have hc' : live s.disk.docs ++ w.buf = c := by rw [← hc]; simp [contents, hw]
  unfold iwDeleteTerm
  rw [hw]
  simp only
  split
  · obtain ⟨⟨g, gc⟩, ⟨w', e, eb⟩, gr, ga⟩ := iwCommit_spec ht h (by rw [hw]; rfl) ⟨h1, h2⟩ hc'
    rw [e]
    simp only
    generalize iwCommit σ s w = t at *
    obtain ⟨g1, g2, g3, g4⟩ := g.wr w' e
    have gc' : live w'.com.docs = c := by rw [← gc, g1]; simp [contents, e, eb]
    split
    · rename_i hn
      refine ⟨⟨g, ?_⟩, ⟨w', e⟩, rfl, ga⟩
      rw [gc, ← gc', live_none (List.isEmpty_iff.1 hn)]
    · refine ⟨⟨⟨.inl gr, ?_, ?_, ?_, ?_, ?_, ?_, ?_, ?_, ?_, ?_, g.look⟩, ?_⟩, ⟨_, tr⟩, tr, ga⟩
      · rintro _ ⟨⟩; exact ⟨rfl, rfl, g3, g4⟩
      · intro v e; simp [g4] at e
      · intro _; exact .inl rfl
      · intro r e; simp [gr] at e
      · intro r e; simp [gr] at e
      · intro r e; simp [gr] at e
      · intro r e; simp [gr] at e
      · intro r e; simp [gr] at e
      · intro r e; simp [gr] at e
      · intro hm; have := g.disk hm; rw [← g1] at this; exact this
      · rw [← gc']
        simp only [contents, eb, List.append_nil]
        exact live_hits p w'.com.docs
  · rename_i hn
    refine ⟨⟨h, ?_⟩, ⟨w, hw⟩, rfl, rfl⟩
    rw [hc]
    symm
    rw [List.filter_eq_self]
    intro x hx
    cases hp : p x with
    | false => rfl
    | true =>
      exfalso
      apply hn
      apply hk
      refine ⟨x, ?_, hp⟩
      rw [← hc', List.mem_append] at hx
      rw [List.mem_append]
      refine hx.imp_left fun hx => ?_
      rw [h1]
      obtain ⟨y, hy, rfl⟩ := List.mem_map.1 hx
      have : ∀ (i) (l : List (α × Bool)), y ∈ numberedFrom i l → y.2 ∈ l.map (·.1) := by
        intro i l
        induction l generalizing i with
        | nil => intro h; cases h
        | cons z l ih =>
          obtain ⟨d, del⟩ := z
          cases del
          · simp only [numberedFrom, List.mem_cons]
            rintro (rfl | h)
            · simp
            · simp [List.mem_map.1 (ih _ h)]
          · intro h; simp [List.mem_map.1 (ih _ h)]
      exact this 0 _ hy

theorem flushIw_spec {m o : Bool} {c : List α} {s : Ix α} {σ} (ht : Tidy σ) (h : St m o c s) :
    St m o c (flushIw σ s) ∧ (flushIw σ s).ir = s.ir := by
  unfold flushIw
  split
  · obtain ⟨g, _, gi, _⟩ := closeWriter_spec ht h
    exact ⟨g, gi⟩
  · exact ⟨h, rfl⟩

theorem matchesKey_one {k : Key α K V} {f : K} (hf : k.fields = [f]) (d x : α) :
    matchesKey k d x = match k.value f d with | some v => k.has f v x | none => false := by
  unfold matchesKey
  rw [hf]
  cases h : k.value f d <;> simp [List.filter, h]

theorem matchesKey_many (k : Key α K V) (d x : α) :
    matchesKey k d x = (!(k.fields.filterMap fun f => (k.value f d).map (k.has f)).isEmpty &&
      (k.fields.filterMap fun f => (k.value f d).map (k.has f)).all (· x)) := by
  unfold matchesKey
  simp only
  generalize k.fields = fs
  have h1 : (fs.filter fun f => (k.value f d).isSome).isEmpty = (fs.filterMap fun f => (k.value f d).map (k.has f)).isEmpty := by
    induction fs with
    | nil => rfl
    | cons f fs ih => cases h : k.value f d <;> simp [List.filter, h] at ih ⊢; exact ih
  have h2 : ((fs.filter fun f => (k.value f d).isSome).all fun f => match k.value f d with | some v => k.has f v x | none => true) =
      (fs.filterMap fun f => (k.value f d).map (k.has f)).all (· x) := by
    clear h1
    induction fs with
    | nil => rfl
    | cons f fs ih => cases h : k.value f d <;> simp [List.filter, h] at ih ⊢ <;> rw [ih]
  rw [h1]
  congr 1

/-- What is deleted before a document is added. -/
theorem delWithKey_spec {m o : Bool} {c : List α} {s : Ix α} {σ} (ht : Tidy σ) (k : Key α K V) (d : α) (g : Bool) (h : St m o c s) :
    (St m false (c.filter (fun x => !matchesKey k d x)) (delWithKey k d g σ s).1 ∧ (delWithKey k d g σ s).2 = .ok ()) ∨
    (delWithKey k d g σ s).2 = .raise .lock ∨
    (St m false c (delWithKey k d g σ s).1 ∧ (delWithKey k d g σ s).2 = .raise .arg ∧ 1 < (c.filter (matchesKey k d)).length) := by
  have many (fs : List K) (hfs : k.fields = fs) :
      let s' := ensureReader σ s
      let qs := fs.filterMap fun f => (k.value f d).map (k.has f)
      let R := match (if qs.isEmpty then [] else hits (fun x => qs.all (· x)) s') with
        | [] => (s', Res.ok ())
        | [n] => irDelete n s'
        | _ :: _ :: _ => (s', .raise .arg)
      (St m false (c.filter (fun x => !matchesKey k d x)) R.1 ∧ R.2 = .ok ()) ∨ R.2 = .raise .lock ∨
      (St m false c R.1 ∧ R.2 = .raise .arg ∧ 1 < (c.filter (matchesKey k d)).length) := by
    subst hfs
    obtain ⟨g1, g2, g3, _⟩ := ensureReader_spec ht h
    intro s' qs R
    have hs' : ensureReader σ s = s' := rfl
    rw [hs'] at g1 g2 g3
    obtain ⟨r, hr⟩ := Option.isSome_iff_exists.1 g3
    have hl : live r.com.docs = c := (contents_reader g1.inv hr).trans g1.con
    have hm : (fun x => matchesKey k d x) = fun x => (!qs.isEmpty && qs.all (· x)) := funext fun x => matchesKey_many k d x
    have hm' : (fun x => !matchesKey k d x) = fun x => !(!qs.isEmpty && qs.all (· x)) := by
      funext x; rw [matchesKey_many]
    have hm2 : matchesKey k d = fun x => (!qs.isEmpty && qs.all (· x)) := hm
    have hh : (if qs.isEmpty then [] else hits (fun x => qs.all (· x)) s') =
        ((numbered r.com.docs).filter fun x => (!qs.isEmpty && qs.all (· x.2))).map (·.1) := by
      split
      · rename_i e; simp [e]
      · rename_i e; rw [hits_reader hr]; simp [e]
    rw [hm', hm2]
    show (St m false _ R.1 ∧ _) ∨ _
    have hR : R = match ((numbered r.com.docs).filter fun x => (!qs.isEmpty && qs.all (· x.2))).map (·.1) with
        | [] => (s', .ok ())
        | [n] => irDelete n s'
        | _ :: _ :: _ => (s', .raise .arg) := by rw [← hh]
    rw [hR]
    clear hR hh R hm hm' hm2
    generalize hp : (fun x => (!qs.isEmpty && qs.all (· x))) = p
    have hp' : (fun x : Nat × α => (!qs.isEmpty && qs.all (· x.2))) = fun x => p x.2 := by rw [← hp]
    have hp2 : (fun x => !(!qs.isEmpty && qs.all (· x))) = fun x => !p x := by rw [← hp]
    rw [hp', hp2]
    split
    · rename_i e
      refine .inl ⟨⟨g1.inv, ?_⟩, rfl⟩
      rw [g1.con, ← hl, live_none e]
    · rename_i n e
      rcases irDelete_spec (n := n) g1 hr with ⟨_, _, _, h3, h4, _⟩ | h
      · rw [live_one e, hl] at h3
        exact .inl ⟨h3, h4⟩
      · exact .inr (.inl h)
    · rename_i e
      refine .inr (.inr ⟨g1, rfl, ?_⟩)
      have := length_hits p r.com.docs
      rw [e, hl] at this
      rw [← this]; simp
  unfold delWithKey
  split
  · rename_i f hf
    rcases ensureWriter_spec (g := g) h with ⟨h1, ⟨w, h2⟩, h3, _⟩ | e
    · generalize ensureWriter g s = x at *
      obtain ⟨t, y⟩ := x
      simp only at h1 h2 h3
      subst h3
      simp only [andThen]
      cases hv : k.value f d with
      | some v =>
        have := iwDeleteTerm_spec (p := k.has f v) (known := fun _ => true) ht (fun _ _ => rfl) h1 h2
        refine .inl ⟨?_, this.2.2.1⟩
        have e : (fun x => !matchesKey k d x) = fun x => !k.has f v x := by
          funext x; rw [matchesKey_one hf, hv]
        rw [e]; exact this.1
      | none =>
        refine .inl ⟨?_, rfl⟩
        have e : (fun x => !matchesKey k d x) = fun _ => true := by
          funext x; rw [matchesKey_one hf, hv]; rfl
        rw [e, List.filter_eq_self.2 (fun _ _ => rfl)]
        exact h1
    · generalize ensureWriter g s = x at *
      obtain ⟨t, y⟩ := x
      simp only at e
      subst e
      exact .inr (.inl rfl)
  · exact many _ rfl

theorem iwAdd_spec {m o : Bool} {c : List α} {s : Ix α} {σ} (ht : Tidy σ) (d : α) (full : Bool) (h : St m o c s) {w} (hw : s.iw = some w) :
    St m o (c ++ [d]) (iwAdd d full σ s).1 ∧ (iwAdd d full σ s).2 = .ok () := by
  obtain ⟨h, hc⟩ := h
  obtain ⟨h1, h2, h3, h4⟩ := h.wr w hw
  have hr : s.ir = none := h.one.resolve_right (by rw [hw]; exact fun e => nomatch e)
  have hc' : live s.disk.docs ++ w.buf = c := by rw [← hc]; simp [contents, hw]
  unfold iwAdd
  rw [hw]
  simp only
  refine ⟨?_, tr⟩
  cases full with
  | true =>
    simp only [if_true]
    exact (iwCommit_spec ht h (by rw [hw]; rfl) (w := { w with buf := w.buf ++ [d] }) ⟨h1, h2⟩ (by rw [← hc', List.append_assoc])).1
  | false =>
    simp only [Bool.false_eq_true, if_false]
    refine ⟨⟨.inl hr, ?_, h.oth, ?_, h.stale, h.lock, h.chg, h.same, h.fresh, h.segs, h.disk, h.look⟩, ?_⟩
    · rintro _ ⟨⟩; exact ⟨h1, h2, h3, h4⟩
    · intro _; exact .inl rfl
    · rw [← hc']; simp [contents]

theorem addDoc_spec {m o : Bool} {c : List α} {s : Ix α} {σ} (ht : Tidy σ) (key : Option (Key α K V)) (d : α) (full g : Bool) (h : St m o c s) :
    ((addDoc key d full g σ s).2 = .ok () ∧
      St m false ((match key with | none => c | some k => c.filter (fun x => !matchesKey k d x)) ++ [d]) (addDoc key d full g σ s).1) ∨
    (addDoc key d full g σ s).2 = .raise .lock ∨
    (St m false c (addDoc key d full g σ s).1 ∧ (addDoc key d full g σ s).2 = .raise .arg ∧
      ∃ k, key = some k ∧ 1 < (c.filter (matchesKey k d)).length) := by
  have rest : ∀ {o} {c'} {t : Ix α}, St m o c' t →
      ((andThen (ensureWriter g t) fun s _ => andThen (iwAdd d full σ s) fun s _ => (flushIw σ s, Res.ok ())).2 = .ok () ∧
        St m false (c' ++ [d]) (andThen (ensureWriter g t) fun s _ => andThen (iwAdd d full σ s) fun s _ => (flushIw σ s, Res.ok ())).1) ∨
      (andThen (ensureWriter g t) fun s _ => andThen (iwAdd d full σ s) fun s _ => (flushIw σ s, Res.ok ())).2 = .raise .lock := by
    intro o c' t ht'
    rcases ensureWriter_spec (g := g) ht' with ⟨h1, ⟨w, h2⟩, h3, _⟩ | e
    · generalize ensureWriter g t = x at *
      obtain ⟨t, y⟩ := x
      simp only at h1 h2 h3
      subst h3
      simp only [andThen]
      obtain ⟨h4, h5⟩ := iwAdd_spec ht d full h1 h2
      generalize iwAdd d full σ t = x at *
      obtain ⟨u, y⟩ := x
      simp only at h4 h5
      subst h5
      exact .inl ⟨rfl, (flushIw_spec ht h4).1⟩
    · generalize ensureWriter g t = x at *
      obtain ⟨t, y⟩ := x
      simp only at e
      subst e
      exact .inr rfl
  unfold addDoc
  cases key with
  | none =>
    simp only [andThen]
    exact (rest h).imp_right .inl
  | some k =>
    simp only
    rcases delWithKey_spec ht k d g h with ⟨h1, h2⟩ | e | ⟨h1, h2, h3⟩
    · generalize delWithKey k d g σ s = x at *
      obtain ⟨t, y⟩ := x
      simp only at h1 h2
      subst h2
      exact (rest h1).imp_right .inl
    · generalize delWithKey k d g σ s = x at *
      obtain ⟨t, y⟩ := x
      simp only at e
      subst e
      exact .inr (.inl rfl)
    · generalize delWithKey k d g σ s = x at *
      obtain ⟨t, y⟩ := x
      simp only at h1 h2
      subst h2
      exact .inr (.inr ⟨h1, rfl, k, rfl, h3⟩)

theorem deleteTerm_spec {m : Bool} {c : List α} {s : Ix α} {σ} {p : α → Bool} {known : List α → Bool} (ht : Tidy σ)
    (hk : ∀ l, (∃ d ∈ l, p d = true) → known l = true) (h : St m false c s) :
    (St m false (c.filter (fun x => !p x)) (deleteTerm p known σ s).1 ∧ (deleteTerm p known σ s).2 = .ok ()) ∨
    (deleteTerm p known σ s).2 = .raise .lock := by
  unfold deleteTerm
  cases hr : s.ir with
  | some r =>
    simp only
    rcases deleteAll_spec true (hits p s) h hr with ⟨_, _, h2, h3⟩ | e
    · rw [hits_reader hr] at h2 h3 ⊢
      rw [live_hits, contents_reader h.inv hr, h.con] at h2
      exact .inl ⟨h2, h3⟩
    · exact .inr e
  | none =>
    simp only
    rcases ensureWriter_spec (g := false) h with ⟨h1, ⟨w, h2⟩, h3, _⟩ | e
    · generalize ensureWriter false s = x at *
      obtain ⟨t, y⟩ := x
      simp only at h1 h2 h3
      subst h3
      simp only [andThen]
      have := iwDeleteTerm_spec ht hk h1 h2
      exact .inl ⟨this.1, this.2.2.1⟩
    · generalize ensureWriter false s = x at *
      obtain ⟨t, y⟩ := x
      simp only at e
      subst e
      exact .inr rfl

theorem deleteQuery_spec {m o : Bool} {c : List α} {s : Ix α} {σ} {p : α → Bool} (ht : Tidy σ) (h : St m o c s) :
    (St m false (c.filter (fun x => !p x)) (deleteQuery p σ s).1 ∧ (deleteQuery p σ s).2 = .ok ()) ∨
    (deleteQuery p σ s).2 = .raise .lock := by
  unfold deleteQuery
  simp only
  obtain ⟨g1, g2, g3, _⟩ := ensureReader_spec ht h
  generalize ensureReader σ s = t at *
  obtain ⟨r, hr⟩ := Option.isSome_iff_exists.1 g3
  rcases deleteAll_spec false (hits p t) g1 hr with ⟨_, _, h2, h3⟩ | e
  · have e : live ((hits p t).foldl (fun l n => mark n l) r.com.docs) = c.filter (fun x => !p x) := by
      rw [hits_reader hr, live_hits, contents_reader g1.inv hr, g1.con]
    rw [e] at h2
    generalize deleteAll false (hits p t) t = x at *
    obtain ⟨u, y⟩ := x
    simp only at h2 h3
    subst h3
    exact .inl ⟨(flushIr_spec h2).1, rfl⟩
  · generalize deleteAll false (hits p t) t = x at *
    obtain ⟨u, y⟩ := x
    simp only at e
    subst e
    exact .inr rfl

theorem iwOptimize_spec {m o : Bool} {c : List α} {s : Ix α} {σ} (ht : Tidy σ) (mg : Bool) (h : St m o c s) {w} (hw : s.iw = some w) :
    St m o c (iwOptimize mg σ s).1 ∧ (iwOptimize mg σ s).2 = .ok () := by
  obtain ⟨h, hc⟩ := h
  obtain ⟨h1, h2, h3, h4⟩ := h.wr w hw
  have hc' : live s.disk.docs ++ w.buf = c := by rw [← hc]; simp [contents, hw]
  unfold iwOptimize
  rw [hw]
  simp only
  obtain ⟨⟨g, gc⟩, ⟨w', e, eb⟩, gr, ga⟩ := iwCommit_spec ht h (by rw [hw]; rfl) ⟨h1, h2⟩ hc'
  rw [e]
  simp only
  generalize iwCommit σ s w = t at *
  obtain ⟨g1, g2, g3, g4⟩ := g.wr w' e
  cases mg with
  | false => exact ⟨⟨g, gc⟩, rfl⟩
  | true =>
    simp only [if_true]
    refine ⟨⟨⟨.inl gr, ?_, ?_, ?_, ?_, ?_, ?_, ?_, ?_, ?_, ?_, g.look⟩, ?_⟩, tr⟩
    · rintro _ ⟨⟩; exact ⟨rfl, rfl, g3, g4⟩
    · intro v e; simp [g4] at e
    · intro _; exact .inl rfl
    · intro r e; simp [gr] at e
    · intro r e; simp [gr] at e
    · intro r e; simp [gr] at e
    · intro r e; simp [gr] at e
    · intro r e; simp [gr] at e
    · intro r e; simp [gr] at e
    · intro hm; have := g.disk hm; rw [← g1] at this; exact ht.some_ _ this
    · rw [← gc]
      simp only [contents, e, eb, List.append_nil]
      rw [ht.same, g1]

/-- Whether the reader may be out of date after a call. -/
def nextOld (old : Bool) : IndOp α → Bool
  | .otherCommit _ => true
  | .flush _ => old
  | .otherOpen => old
  | .otherClose => old
  | _ => false

theorem looks_next {o : Bool} {op : IndOp α} {ops} (h : Looks o (op :: ops)) : Looks (nextOld o op) ops := by
  cases op <;> simp only [Looks] at h <;> first | exact h | exact h.2

theorem solo {o o' : Bool} {s : Ix α} {c} (h : St false o c s) : St false o' c s :=
  ⟨{ h.inv with fresh := fun r hr _ => h.inv.fresh r hr (.inl rfl) }, h.con⟩

theorem step_spec {m o : Bool} {c : List α} {s : Ix α} (key : Option (Key α K V)) {op : IndOp α} {ops} (h : St m o c s) (hs : op.Sound)
    (ha : m = false → ∀ c, op ≠ .otherCommit c) (hl : m = true → Looks o (op :: ops)) (hne : (step key s op).2 ≠ .raise .lock) :
    ∃ c', Effect key op (step key s op).2 c c' ∧ St m (nextOld o op) c' (step key s op).1 := by
  cases op with
  | read σ =>
    obtain ⟨g1, g2, g3, _⟩ := ensureReader_spec hs h
    refine ⟨c, ?_, g1⟩
    simp only [step]
    generalize ensureReader σ s = t at *
    obtain ⟨r, hr⟩ := Option.isSome_iff_exists.1 g3
    refine ⟨?_, rfl⟩
    rw [← g1.con, ← contents_reader g1.inv hr]
    simp [shown, hr, live]
  | add d full g σ =>
    simp only [step] at hne ⊢
    rcases addDoc_spec hs key d full g h with ⟨e, h1⟩ | e | ⟨h1, e, h2⟩
    · generalize addDoc key d full g σ s = x at *
      obtain ⟨t, y⟩ := x
      simp only at e h1
      subst e
      refine ⟨_, ?_, h1⟩
      cases key <;> rfl
    · generalize addDoc key d full g σ s = x at *
      obtain ⟨t, y⟩ := x
      simp only at e
      subst e
      exact absurd rfl hne
    · generalize addDoc key d full g σ s = x at *
      obtain ⟨t, y⟩ := x
      simp only at e h1
      subst e
      exact ⟨c, ⟨rfl, h2⟩, h1⟩
  | delete n σ =>
    simp only [step] at hne ⊢
    obtain ⟨g1, g2, g3, _⟩ := ensureReader_spec hs h
    generalize ensureReader σ s = t at *
    obtain ⟨r, hr⟩ := Option.isSome_iff_exists.1 g3
    have hsh : shown t = numbered r.com.docs := by simp [shown, hr]
    have hc : (shown t).map (·.2) = c := by
      rw [← g1.con, ← contents_reader g1.inv hr, hsh]; rfl
    rcases irDelete_spec (n := n) g1 hr with ⟨r', h1, h2, h3, h4, _⟩ | e
    · generalize irDelete n t = x at *
      obtain ⟨u, y⟩ := x
      simp only at h1 h3 h4
      subst h4
      simp only [andThen]
      refine ⟨_, ⟨hc, rfl⟩, ?_⟩
      have := (flushIr_spec h3).1
      rw [live, numbered_mark] at this
      rw [hsh]
      exact this
    · generalize irDelete n t = x at *
      obtain ⟨u, y⟩ := x
      simp only at e
      subst e
      exact absurd rfl hne
  | deleteTerm p known σ =>
    simp only [step] at hne ⊢
    have h' : St m false c s := by
      cases m with
      | false => exact solo h
      | true => have := (hl rfl).1; subst this; exact h
    rcases deleteTerm_spec hs.1 hs.2 h' with ⟨h1, e⟩ | e
    · generalize deleteTerm p known σ s = x at *
      obtain ⟨t, y⟩ := x
      simp only at e h1
      subst e
      exact ⟨_, rfl, h1⟩
    · generalize deleteTerm p known σ s = x at *
      obtain ⟨t, y⟩ := x
      simp only at e
      subst e
      exact absurd rfl hne
  | deleteQuery p σ =>
    simp only [step] at hne ⊢
    rcases deleteQuery_spec (p := p) hs h with ⟨h1, e⟩ | e
    · generalize deleteQuery p σ s = x at *
      obtain ⟨t, y⟩ := x
      simp only at e h1
      subst e
      exact ⟨_, rfl, h1⟩
    · generalize deleteQuery p σ s = x at *
      obtain ⟨t, y⟩ := x
      simp only at e
      subst e
      exact absurd rfl hne
  | optimize mg σ =>
    simp only [step] at hne ⊢
    rcases ensureWriter_spec (g := false) h with ⟨h1, ⟨w, h2⟩, h3, _⟩ | e
    · generalize ensureWriter false s = x at *
      obtain ⟨t, y⟩ := x
      simp only at h1 h2 h3
      subst h3
      simp only [andThen]
      obtain ⟨h4, h5⟩ := iwOptimize_spec hs mg h1 h2
      generalize iwOptimize mg σ t = x at *
      obtain ⟨u, y⟩ := x
      simp only at h4 h5
      subst h5
      exact ⟨c, rfl, (flushIw_spec hs h4).1⟩
    · generalize ensureWriter false s = x at *
      obtain ⟨t, y⟩ := x
      simp only at e
      subst e
      exact absurd rfl hne
  | flush σ =>
    simp only [step] at hne ⊢
    refine ⟨c, rfl, ?_⟩
    unfold flush
    split
    · exact (irCommit_spec h).1
    · exact (closeWriter_spec hs h).1
  | otherOpen =>
    obtain ⟨h, hc⟩ := h
    simp only [step] at hne ⊢
    cases hf : s.file with
    | true => simp [hf] at hne
    | false =>
      simp only [Bool.false_eq_true, if_false]
      have hw : s.iw = none := by
        cases e : s.iw with
        | none => rfl
        | some w => have := (h.wr w e).2.2.1; rw [hf] at this; cases this
      have hg : ∀ r, s.ir = some r → r.changes = false := by
        intro r hr
        cases e : r.changes with
        | false => rfl
        | true => have := (h.chg r hr e).2.1; rw [hf] at this; cases this
      refine ⟨c, rfl, ⟨h.one, ?_, ?_, ?_, h.stale, h.lock, ?_, h.same, h.fresh, h.segs, h.disk, h.look⟩, hc⟩
      · intro w e; simp [hw] at e
      · rintro v ⟨⟩; exact ⟨rfl, rfl⟩
      · intro _; exact .inr (.inl rfl)
      · intro r hr e; rw [hg r hr] at e; cases e
  | otherClose =>
    obtain ⟨h, hc⟩ := h
    simp only [step] at hne ⊢
    cases ho : s.other with
    | none => simp [ho] at hne
    | some v =>
      have hw : s.iw = none := by
        cases e : s.iw with
        | none => rfl
        | some w => have := (h.wr w e).2.2.2; rw [ho] at this; cases this
      have hg : ∀ r, s.ir = some r → r.changes = false := by
        intro r hr
        cases e : r.changes with
        | false => rfl
        | true => have := (h.chg r hr e).2.2; rw [ho] at this; cases this
      refine ⟨c, rfl, ⟨h.one, ?_, ?_, ?_, h.stale, h.lock, ?_, h.same, h.fresh, h.segs, h.disk, h.look⟩, hc⟩
      · intro w e; simp [hw] at e
      · intro v e; simp at e
      · intro e; simp at e
      · intro r hr e; rw [hg r hr] at e; cases e
  | otherCommit x =>
    have hm : m = true := by
      cases m with
      | true => rfl
      | false => exact absurd rfl (ha rfl x)
    subst hm
    have hx := (hl rfl).1
    obtain ⟨h, hc⟩ := h
    simp only [step] at hne ⊢
    cases ho : s.other with
    | none => simp [ho] at hne
    | some v =>
      obtain ⟨hv, hf⟩ := h.oth v ho
      have hw : s.iw = none := by
        cases e : s.iw with
        | none => rfl
        | some w => have := (h.wr w e).2.2.2; rw [ho] at this; cases this
      have hg : ∀ r, s.ir = some r → r.changes = false := by
        intro r hr
        cases e : r.changes with
        | false => rfl
        | true => have := (h.chg r hr e).2.2; rw [ho] at this; cases this
      refine ⟨_, rfl, ⟨h.one, ?_, ?_, ?_, h.stale, h.lock, ?_, ?_, ?_, h.segs, fun _ => hx, h.look⟩, ?_⟩
      · intro w e; simp [hw] at e
      · rintro _ ⟨⟩; exact ⟨rfl, hf⟩
      · intro _; exact .inr (.inl rfl)
      · intro r hr e; rw [hg r hr] at e; cases e
      · intro r hr e
        refine .inr ?_
        show r.ver < v + 1
        rcases h.same r hr e with h | h <;> omega
      · intro r hr e; rcases e with e | e <;> simp [nextOld] at e
      · simp only [contents]
        rw [hw]
        cases hr : s.ir with
        | none => rfl
        | some r => simp [hg r hr]

theorem fresh_st (m : Bool) (c : Com α) (v : Nat) (af cl : Bool) (hc : m = true → c.segs ≠ 0) (hl : m = true → cl = true) :
    St m false (live c.docs) (fresh c v af cl) := by
  refine ⟨⟨.inl rfl, ?_, ?_, ?_, ?_, ?_, ?_, ?_, ?_, ?_, hc, hl⟩, rfl⟩ <;> simp [fresh]

/-! ### Committing at once -/

/-- Nothing is left to commit. -/
def Done (c : List α) (s : Ix α) : Prop := live s.disk.docs = c ∧ (s.file = true → s.other.isSome)

theorem done_of {m o : Bool} {c : List α} {t : Ix α} (h : St m o c t) (hw : t.iw = none) (hg : ∀ r, t.ir = some r → r.changes = false) :
    Done c t := by
  refine ⟨?_, fun hf => ?_⟩
  · rw [← h.con]
    unfold contents
    rw [hw]
    cases hr : t.ir with
    | none => rfl
    | some r => simp [hg r hr]
  · rcases h.inv.file hf with e | e | ⟨r, e1, e2⟩
    · rw [hw] at e; cases e
    · exact e
    · rw [hg r e1] at e2; cases e2

theorem irDelete_auto (n : Nat) (s : Ix α) : (irDelete n s).1.autoFlush = s.autoFlush ∧ ((irDelete n s).2 = .ok () → (irDelete n s).1.iw = s.iw) := by
  unfold irDelete
  cases s.ir with
  | none => exact ⟨rfl, fun h => nomatch h⟩
  | some r =>
    simp only
    repeat' split
    all_goals exact ⟨rfl, fun _ => rfl⟩

theorem deleteAll_auto (ns : List Nat) (s : Ix α) :
    (deleteAll false ns s).1.autoFlush = s.autoFlush ∧ ((deleteAll false ns s).2 = .ok () → (deleteAll false ns s).1.iw = s.iw) := by
  induction ns generalizing s with
  | nil => exact ⟨rfl, fun _ => rfl⟩
  | cons n ns ih =>
    have h := irDelete_auto n s
    simp only [deleteAll]
    generalize irDelete n s = x at *
    obtain ⟨t, y⟩ := x
    cases y with
    | ok a =>
      simp only [andThen, Bool.false_eq_true, if_false]
      exact ⟨(ih t).1.trans h.1, fun e => ((ih t).2 e).trans (h.2 rfl)⟩
    | raise e => exact ⟨h.1, fun h => nomatch h⟩
    | ub => exact ⟨h.1, fun h => nomatch h⟩

theorem flushIr_done {m o : Bool} {c : List α} {t : Ix α} (h : St m o c t) (hw : t.iw = none) (ha : t.autoFlush = true) : Done c (flushIr t) := by
  unfold flushIr
  rw [if_pos ha]
  obtain ⟨g, gw, _, gg, _⟩ := irCommit_spec h
  exact done_of g (gw.trans hw) gg

theorem flushIw_done {m o : Bool} {c : List α} {t : Ix α} {σ} (ht : Tidy σ) (h : St m o c t) (hr : t.ir = none) (ha : t.autoFlush = true) : Done c (flushIw σ t) := by
  unfold flushIw
  rw [if_pos ha]
  obtain ⟨g, gw, gr, _⟩ := closeWriter_spec ht h
  exact done_of g gw (by rw [gr, hr]; intro r e; cases e)

theorem irCommit_auto (s : Ix α) : (irCommit s).autoFlush = s.autoFlush := by
  unfold irCommit; repeat' split
  all_goals rfl

theorem iwCommit_auto (σ) (s : Ix α) (w : Wr α) : (iwCommit σ s w).autoFlush = s.autoFlush := by
  unfold iwCommit; split <;> rfl

theorem closeWriter_auto (σ) (s : Ix α) : (closeWriter σ s).autoFlush = s.autoFlush := by
  unfold closeWriter; split
  · rfl
  · exact iwCommit_auto ..

theorem ensureReader_auto (σ) (s : Ix α) : (ensureReader σ s).autoFlush = s.autoFlush := by
  unfold ensureReader
  repeat' split
  · exact irCommit_auto s
  · rfl
  · exact closeWriter_auto σ s

theorem ensureWriter_auto (g) (s : Ix α) : (ensureWriter g s).1.autoFlush = s.autoFlush := by
  unfold ensureWriter
  split
  · rfl
  · have h : (closeReader s).autoFlush = s.autoFlush := irCommit_auto s
    simp only
    generalize closeReader s = t at *
    repeat' split
    all_goals exact h

theorem iwDeleteTerm_auto (p known σ) (s : Ix α) : (iwDeleteTerm p known σ s).1.autoFlush = s.autoFlush := by
  unfold iwDeleteTerm
  split
  · rfl
  · rename_i w _
    have h := iwCommit_auto σ s w
    split
    · simp only
      generalize iwCommit σ s w = t at *
      repeat' split
      all_goals exact h
    · rfl

theorem delWithKey_auto (k : Key α K V) (d g σ) (s : Ix α) : (delWithKey k d g σ s).1.autoFlush = s.autoFlush := by
  unfold delWithKey
  split
  · have h := ensureWriter_auto g s
    generalize ensureWriter g s = x at *
    obtain ⟨t, y⟩ := x
    cases y with
    | ok a =>
      simp only [andThen]
      split
      · exact (iwDeleteTerm_auto ..).trans h
      · exact h
    | raise e => exact h
    | ub => exact h
  · have h := ensureReader_auto σ s
    simp only
    generalize ensureReader σ s = t at *
    split
    · exact h
    · exact (irDelete_auto _ t).1.trans h
    · exact h

/-- With auto_flush, what was added or deleted is on disk when the call returns. -/
theorem step_done {m o : Bool} {c c' : List α} {s : Ix α} (key : Option (Key α K V)) {op : IndOp α} (h : St m o c s) (hs : op.Sound)
    (ha : s.autoFlush = true) (hf : op.flushes = true) {r} (hok : (step key s op).2 = .ok r) {o' : Bool} (h' : St m o' c' (step key s op).1) :
    Done c' (step key s op).1 := by
  have close : ∀ {t : Ix α}, St m o' c' t → t.iw = none → (∀ r, t.ir = some r → r.changes = false) → Done c' t := done_of
  cases op with
  | read σ => cases hf
  | deleteTerm p known σ => cases hf
  | otherOpen => cases hf
  | otherCommit _ => cases hf
  | otherClose => cases hf
  | flush σ =>
    refine close h' ?_ ?_
    all_goals simp only [step, flush]
    · split
      · rename_i r hr
        exact (irCommit_spec h).2.1.trans (h.inv.one.resolve_left (by rw [hr]; exact fun e => nomatch e))
      · exact (closeWriter_spec hs h).2.1
    · split
      · exact (irCommit_spec h).2.2.2.1
      · rename_i hr
        rw [(closeWriter_spec hs h).2.2.1, hr]
        intro r e; cases e
  | delete n σ =>
    simp only [step] at hok h' ⊢
    obtain ⟨g1, g2, g3, _⟩ := ensureReader_spec hs h
    have ga := (ensureReader_auto σ s).trans ha
    generalize ensureReader σ s = t at *
    have h1 := irDelete_auto n t
    obtain ⟨r, hr⟩ := Option.isSome_iff_exists.1 g3
    have h2 := irDelete_spec (n := n) g1 hr
    generalize irDelete n t = x at *
    obtain ⟨u, y⟩ := x
    cases y with
    | ok a =>
      simp only [andThen] at h' ⊢
      have hw : u.iw = none := (h1.2 rfl).trans g2
      obtain ⟨_, _, _, h3, _⟩ := h2.resolve_right (by intro e; cases e)
      have := flushIr_done h3 hw (h1.1.trans ga)
      have e : live (mark n r.com.docs) = c' := by
        have := (flushIr_spec h3).1.con
        rw [← this, h'.con]
      rw [e] at this
      exact this
    | raise e => cases hok
    | ub => cases hok
  | deleteQuery p σ =>
    simp only [step, deleteQuery] at hok h' ⊢
    obtain ⟨g1, g2, g3, _⟩ := ensureReader_spec hs h
    have ga := (ensureReader_auto σ s).trans ha
    generalize ensureReader σ s = t at *
    have h1 := deleteAll_auto (hits p t) t
    obtain ⟨r, hr⟩ := Option.isSome_iff_exists.1 g3
    have h2 := deleteAll_spec false (hits p t) g1 hr
    generalize deleteAll false (hits p t) t = x at *
    obtain ⟨u, y⟩ := x
    cases y with
    | ok a =>
      simp only [andThen] at h' ⊢
      have hw : u.iw = none := (h1.2 rfl).trans g2
      obtain ⟨_, _, h3, _⟩ := h2.resolve_right (by intro e; cases e)
      have := flushIr_done h3 hw (h1.1.trans ga)
      have e := (flushIr_spec h3).1.con
      rw [h'.con] at e
      rw [e]
      exact this
    | raise e => cases hok
    | ub => cases hok
  | optimize mg σ =>
    simp only [step] at hok h' ⊢
    have h1 := ensureWriter_spec (g := false) h
    have ga := (ensureWriter_auto false s).trans ha
    generalize ensureWriter false s = x at *
    obtain ⟨t, y⟩ := x
    rcases h1 with ⟨h1, ⟨w, h2⟩, h3, _⟩ | e
    · simp only at h1 h2 h3 ga
      subst h3
      simp only [andThen] at hok h' ⊢
      obtain ⟨h4, h5⟩ := iwOptimize_spec hs mg h1 h2
      have h6 : (iwOptimize mg σ t).1.iw.isSome ∧ (iwOptimize mg σ t).1.autoFlush = t.autoFlush := by
        unfold iwOptimize
        rw [h2]
        simp only
        have e := iwCommit_auto σ t w
        have e2 : (iwCommit σ t w).iw.isSome := by unfold iwCommit; split <;> rfl
        generalize iwCommit σ t w = u at *
        obtain ⟨w', e2⟩ := Option.isSome_iff_exists.1 e2
        rw [e2]
        simp only
        split
        · exact ⟨rfl, e⟩
        · exact ⟨by rw [e2]; rfl, e⟩
      generalize iwOptimize mg σ t = x at *
      obtain ⟨u, y⟩ := x
      simp only at h4 h5 h6
      subst h5
      simp only at h' ⊢
      have hr : u.ir = none := h4.inv.one.resolve_right (by intro e; rw [e] at h6; cases h6.1)
      have := flushIw_done hs h4 hr (h6.2.trans ga)
      have e := (flushIw_spec hs h4).1.con
      rw [h'.con] at e
      rw [e]
      exact this
    · simp only at e
      subst e
      cases hok
  | add d full g σ =>
    simp only [step, addDoc] at hok h' ⊢
    have fin : ∀ {o'' : Bool} {c'' : List α} {t : Ix α}, St m o'' c'' t → t.autoFlush = true →
        ∀ {z : Ix α × Res (List (Nat × α))}, z = andThen (andThen (ensureWriter g t) fun s _ => andThen (iwAdd d full σ s) fun s _ => (flushIw σ s, Res.ok ())) (fun s _ => (s, .ok [])) →
        z.2 = .ok r → St m o' c' z.1 → Done c' z.1 := by
      intro o'' c'' t ht ga z hz hok h'
      have h1 := ensureWriter_spec (g := g) ht
      have ga := (ensureWriter_auto g t).trans ga
      generalize ensureWriter g t = x at *
      obtain ⟨t, y⟩ := x
      rcases h1 with ⟨h1, ⟨w, h2⟩, h3, _⟩ | e
      · simp only at h1 h2 h3 ga
        subst h3
        simp only [andThen] at hz
        obtain ⟨h4, h5⟩ := iwAdd_spec hs d full h1 h2
        have h6 : (iwAdd d full σ t).1.iw.isSome ∧ (iwAdd d full σ t).1.autoFlush = t.autoFlush := by
          unfold iwAdd
          rw [h2]
          simp only
          split
          · exact ⟨by unfold iwCommit; split <;> rfl, iwCommit_auto ..⟩
          · exact ⟨rfl, rfl⟩
        generalize iwAdd d full σ t = x at *
        obtain ⟨u, y⟩ := x
        simp only at h4 h5 h6
        subst h5
        simp only at hz
        subst hz
        have hr : u.ir = none := h4.inv.one.resolve_right (by intro e; rw [e] at h6; cases h6.1)
        have := flushIw_done hs h4 hr (h6.2.trans ga)
        have e := (flushIw_spec hs h4).1.con
        rw [h'.con] at e
        rw [e]
        exact this
      · simp only at e
        subst e
        subst hz
        cases hok
    cases key with
    | none =>
      simp only [andThen] at hok h' ⊢
      exact fin h ha rfl hok h'
    | some k =>
      simp only at hok h' ⊢
      have h1 := delWithKey_spec hs k d g h
      have ga := (delWithKey_auto k d g σ s).trans ha
      generalize delWithKey k d g σ s = x at *
      obtain ⟨t, y⟩ := x
      rcases h1 with ⟨h1, h2⟩ | e | ⟨h1, e, _⟩
      · simp only at h1 h2
        subst h2
        exact fin h1 ga rfl hok h'
      · simp only at e
        subst e
        cases hok
      · simp only at e
        subst e
        cases hok

theorem andThen_auto {β γ : Type} {a : Bool} {r : Ix α × Res β} {f : Ix α → β → Ix α × Res γ} (h : r.1.autoFlush = a)
    (hf : ∀ s b, s.autoFlush = a → (f s b).1.autoFlush = a) : (andThen r f).1.autoFlush = a := by
  obtain ⟨t, y⟩ := r
  cases y with
  | ok b => exact hf t b h
  | raise e => exact h
  | ub => exact h

theorem flushIr_auto (s : Ix α) : (flushIr s).autoFlush = s.autoFlush := by
  unfold flushIr; split
  · exact irCommit_auto s
  · rfl

theorem flushIw_auto (σ) (s : Ix α) : (flushIw σ s).autoFlush = s.autoFlush := by
  unfold flushIw; split
  · exact closeWriter_auto σ s
  · rfl

theorem deleteAll_auto' (f : Bool) (ns : List Nat) (s : Ix α) : (deleteAll f ns s).1.autoFlush = s.autoFlush := by
  induction ns generalizing s with
  | nil => rfl
  | cons n ns ih =>
    refine andThen_auto (irDelete_auto n s).1 fun t _ ht => ?_
    rw [ih]
    split
    · exact (flushIr_auto t).trans ht
    · exact ht

theorem iwAdd_auto (d full σ) (s : Ix α) : (iwAdd d full σ s).1.autoFlush = s.autoFlush := by
  unfold iwAdd
  split
  · rfl
  · simp only
    split
    · exact iwCommit_auto ..
    · rfl

theorem iwOptimize_auto (mg σ) (s : Ix α) : (iwOptimize mg σ s).1.autoFlush = s.autoFlush := by
  unfold iwOptimize
  split
  · rfl
  · rename_i w _
    have h := iwCommit_auto σ s w
    simp only
    generalize iwCommit σ s w = t at *
    repeat' split
    all_goals exact h

theorem step_auto (key : Option (Key α K V)) (s : Ix α) (op : IndOp α) : (step key s op).1.autoFlush = s.autoFlush := by
  cases op with
  | read σ => exact ensureReader_auto σ s
  | add d full g σ =>
    refine andThen_auto ?_ fun _ _ h => h
    refine andThen_auto ?_ fun t _ h => ?_
    · split
      · rfl
      · exact delWithKey_auto ..
    · refine andThen_auto ((ensureWriter_auto g t).trans h) fun u _ h => ?_
      exact andThen_auto ((iwAdd_auto d full σ u).trans h) fun v _ h => (flushIw_auto σ v).trans h
  | delete n σ =>
    exact andThen_auto ((irDelete_auto n _).1.trans (ensureReader_auto σ s)) fun t _ h => (flushIr_auto t).trans h
  | deleteTerm p known σ =>
    refine andThen_auto ?_ fun _ _ h => h
    unfold deleteTerm
    split
    · exact deleteAll_auto' ..
    · exact andThen_auto (ensureWriter_auto false s) fun t _ h => (iwDeleteTerm_auto p known σ t).trans h
  | deleteQuery p σ =>
    refine andThen_auto ?_ fun _ _ h => h
    exact andThen_auto ((deleteAll_auto' false _ _).trans (ensureReader_auto σ s)) fun t _ h => (flushIr_auto t).trans h
  | optimize mg σ =>
    refine andThen_auto (ensureWriter_auto false s) fun t _ h => ?_
    exact andThen_auto ((iwOptimize_auto mg σ t).trans h) fun u _ h => (flushIw_auto σ u).trans h
  | flush σ =>
    simp only [step, flush]
    split
    · exact irCommit_auto s
    · exact closeWriter_auto σ s
  | otherOpen => simp only [step]; split <;> rfl
  | otherCommit c => simp only [step]; split <;> rfl
  | otherClose => simp only [step]; split <;> rfl

theorem run_auto (key : Option (Key α K V)) (ops : List (IndOp α)) (s : Ix α) : (run key s ops).1.autoFlush = s.autoFlush := by
  induction ops generalizing s with
  | nil => rfl
  | cons op ops ih => simp only [run]; rw [ih, step_auto]

theorem run_append (key : Option (Key α K V)) (a b : List (IndOp α)) (s : Ix α) :
    run key s (a ++ b) = ((run key (run key s a).1 b).1, (run key s a).2 ++ (run key (run key s a).1 b).2) := by
  induction a generalizing s with
  | nil => rfl
  | cons op a ih => simp [run, ih]

theorem looks_append {a b : List (IndOp α)} {o : Bool} (h : Looks o (a ++ b)) : Looks (a.foldl nextOld o) b := by
  induction a generalizing o with
  | nil => exact h
  | cons op a ih => exact ih (looks_next h)

theorem looks_left {a b : List (IndOp α)} {o : Bool} (h : Looks o (a ++ b)) : Looks o a := by
  induction a generalizing o with
  | nil => trivial
  | cons op a ih =>
    cases op <;> simp only [List.cons_append, Looks] at h ⊢ <;> first | exact ih h | exact ⟨h.1, ih h.2⟩

theorem run_spec {m : Bool} (key : Option (Key α K V)) (ops : List (IndOp α)) {o : Bool} {c : List α} {s : Ix α} (h : St m o c s)
    (hs : ∀ op ∈ ops, op.Sound) (ha : m = false → Alone ops) (hl : m = true → Looks o ops)
    (hne : ∀ x ∈ (run key s ops).2, x.2 ≠ .raise .lock) :
    ∃ c', Hist key c (run key s ops).2 c' ∧ St m (ops.foldl nextOld o) c' (run key s ops).1 := by
  induction ops generalizing o c s with
  | nil => exact ⟨c, .nil c, h⟩
  | cons op ops ih =>
    simp only [run] at hne ⊢
    obtain ⟨c1, h1, h2⟩ := step_spec key h (hs op (.head _)) (fun e c he => ha e c (he ▸ .head _)) hl (hne _ (.head _))
    obtain ⟨c2, h3, h4⟩ := ih h2 (fun op hop => hs op (.tail _ hop)) (fun e c hc => ha e c (.tail _ hc))
      (fun e => looks_next (hl e)) (fun x hx => hne x (.tail _ hx))
    exact ⟨c2, .cons h1 h3, h4⟩

theorem Hist.append {key : Option (Key α K V)} {c c' c'' : List α} {a b} (h : Hist key c a c') (h' : Hist key c' b c'') : Hist key c (a ++ b) c'' := by
  induction h with
  | nil => exact h'
  | cons e _ ih => exact .cons e (ih h')

end Ferret.Ind
