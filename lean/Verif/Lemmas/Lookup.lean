import Verif.Model.Lookup
import Verif.Props.C20

/-! Lookups by several threads: the steps of one lookup. -/

namespace Ferret.Dict
open Ferret Ferret.Expand Ferret.Props

theorem upd_self {α : Type} (g : Nat → α) (i : Nat) (x : α) : upd g i x i = x := if_pos rfl
theorem upd_ne {α : Type} (g : Nat → α) {i j : Nat} (x : α) (h : j ≠ i) : upd g i x j = g j := if_neg h

variable {sfi : SFI} {tis : List Byte} {fields : List (Nat × List (Term × TI))}

/-- An enumerator in order, in field `g`. -/
def TeOK (sfi : SFI) (tis : List Byte) (fields : List (Nat × List (Term × TI))) (g : Int) (e : STE) : Prop :=
  ReaderOK sfi tis fields ⟨g, some e⟩

theorem TeOK.fieldEq {g : Int} {e : STE} (h : TeOK sfi tis fields g e) : e.field = g := h.2.2

theorem setField_field (e : STE) (f : Int) : (steSetField sfi e f).field = f := by
  unfold steSetField
  cases sfi.dict f <;> rfl

theorem teOK_set (hd : DictOK sfi tis fields) {g : Int} {e : STE} (h : TeOK sfi tis fields g e) (f : Int) : TeOK sfi tis fields f (steSetField sfi e f) := by
  obtain ⟨⟨c, hst⟩, hfile, -⟩ := h
  obtain ⟨e', o, e1, s1, f1, -⟩ := enumStep_spec hd _ c hst hfile (.setField f)
  simp only [enumStep, Res.ok.injEq, Prod.mk.injEq] at e1
  obtain ⟨e1, -⟩ := e1
  have e2 : steSetField sfi e f = e' := e1
  rw [← e2] at s1 f1
  exact ⟨⟨_, s1⟩, f1, setField_field e f⟩

theorem teOK_new (hd : DictOK sfi tis fields) (f : Int) : TeOK sfi tis fields f (steSetField sfi (steNew tis) f) := by
  obtain ⟨e', o, e1, s1, f1, -⟩ := enumStep_spec hd _ _ (stands_new sfi tis fields) rfl (.setField f)
  simp only [enumStep, Res.ok.injEq, Prod.mk.injEq] at e1
  obtain ⟨e1, -⟩ := e1
  rw [← e1] at s1 f1
  exact ⟨⟨_, s1⟩, f1, setField_field _ f⟩

/-- What an enumerator finds. -/
def found (t : Term) (x : STE × Option Term) : Option TI :=
  match x.2 with
  | some m => if strcmp m t = 0 then some x.1.ti else none
  | none => none

/-- The right answer to a lookup. -/
def Right (si : Nat) (fields : List (Nat × List (Term × TI))) (f : Int) (t : Term) (o : Option TI) : Prop :=
  o.map (fun ti => seen si (t, ti)) = (entryOf fields f t).map (seen si)

theorem scan_ok (hd : DictOK sfi tis fields) {g : Int} {e : STE} (h : TeOK sfi tis fields g e) (t : Term) :
    ∃ x, scanTo sfi e t = .ok x ∧ TeOK sfi tis fields g x.1 ∧ Right sfi.skipInterval fields g t (found t x) := by
  obtain ⟨r', o, e1, h1, h2⟩ := lookup_spec hd ⟨g, some e⟩ h g t
  unfold tirGetTiField tirGetTi at e1
  rw [if_neg (fun hc => hc rfl)] at e1
  have hte : tirEnum sfi tis ({ (⟨g, some e⟩ : TIR) with te := some (tirEnum sfi tis ⟨g, some e⟩) }) = e := rfl
  rw [hte] at e1
  cases hs : scanTo sfi e t with
  | raise err => rw [hs] at e1; cases e1
  | ub => rw [hs] at e1; cases e1
  | ok x =>
    rw [hs, Res.ok_bind] at e1
    simp only [Res.ok.injEq, Prod.mk.injEq] at e1
    obtain ⟨rfl, rfl⟩ := e1
    exact ⟨x, rfl, h1, h2⟩

/-- Nothing is found where there is nothing. -/
theorem right_empty (hd : DictOK sfi tis fields) {g : Int} (t : Term) (h : ∀ sti, sfi.dict g = some sti → ¬ sti.size > 0) : Right sfi.skipInterval fields g t none := by
  have : entriesOf fields g = [] := by
    rcases (hd g).2 with ⟨-, h2⟩ | ⟨sti, h1, h2⟩
    · exact h2
    · have := h sti h1
      rw [h2.size] at this
      exact List.length_eq_zero_iff.1 (by omega)
  unfold Right entryOf
  have he : (((fields.find? fun x => decide ((x.1 : Int) = g)).map (·.2)).getD []) = entriesOf fields g := rfl
  rw [he, this]
  rfl

/-! ### Runs -/

theorem schedRun_append : ∀ (xs ys : List Sched) (s : Sys), schedRun sfi tis s (xs ++ ys) = schedRun sfi tis s xs >>= fun r => schedRun sfi tis r.1 ys >>= fun r' => .ok (r'.1, r.2 ++ r'.2) := by
  intro xs
  induction xs with
  | nil =>
    intro ys s
    simp only [List.nil_append, schedRun, Res.ok_bind, List.nil_append]
    cases schedRun sfi tis s ys <;> rfl
  | cons x xs ih =>
    intro ys s
    simp only [List.cons_append, schedRun]
    cases schedStep sfi tis s x with
    | raise e => rfl
    | ub => rfl
    | ok r =>
      simp only [Res.ok_bind, ih]
      cases schedRun sfi tis r.1 xs with
      | raise e => rfl
      | ub => rfl
      | ok r2 =>
        simp only [Res.ok_bind]
        cases schedRun sfi tis r2.1 ys with
        | raise e => rfl
        | ub => rfl
        | ok r3 => simp [Res.ok_bind, List.append_assoc]

/-- No thread is in a lookup. -/
structure Quiet (s : Sys) : Prop where
  pc : ∀ i, s.pc i = .idle
  mutex : s.mutex = none
  tab : ∀ f, s.tab f ≠ .part

/-- What a lookup by `i` leaves: its enumerator in field `g`, all other threads as they were. -/
structure Done (sfi : SFI) (tis : List Byte) (fields : List (Nat × List (Term × TI))) (s : Sys) (i : Nat) (t : Term) (fld g : Int) (s' : Sys) (o : Option TI) : Prop where
  field : s'.field = fld
  te : ∃ e, s'.te i = some e ∧ TeOK sfi tis fields g e
  others : ∀ j, j ≠ i → s'.te j = s.te j ∧ s'.pc j = s.pc j
  pc : s'.pc i = .idle
  mutex : s'.mutex = none
  tab : ∀ f, s'.tab f ≠ .part
  right : Right sfi.skipInterval fields g t o
  full : (∃ sti, sfi.dict g = some sti ∧ sti.size > 0) → s'.tab g = .full

theorem idle_run (s : Sys) (i : Nat) (h : s.pc i = .idle) : ∀ n, schedRun sfi tis s (List.replicate n (.go i)) = .ok (s, []) := by
  intro n
  induction n with
  | zero => rfl
  | succ n ih =>
    rw [List.replicate_succ, schedRun]
    have : schedStep sfi tis s (.go i) = .ok (s, []) := by
      unfold schedStep goStep
      simp only [h]
    rw [this, Res.ok_bind, ih]
    rfl

theorem go_step {s s1 s2 : Sys} {i n : Nat} {as as' : List Answer} (h : goStep sfi tis s i = .ok (s1, as)) (h2 : schedRun sfi tis s1 (List.replicate n (.go i)) = .ok (s2, as')) :
    schedRun sfi tis s (List.replicate (n + 1) (.go i)) = .ok (s2, as ++ as') := by
  rw [List.replicate_succ, schedRun]
  have : schedStep sfi tis s (.go i) = .ok (s1, as) := h
  rw [this, Res.ok_bind, h2]
  rfl

/-- The runs of thread `i` in the middle of a lookup, alone. -/
theorem scan_run (hd : DictOK sfi tis fields) (s : Sys) (i : Nat) (f : Int) (t : Term) (g : Int) (e : STE) (hpc : s.pc i = .scan f t) (hte : s.te i = some e) (he : TeOK sfi tis fields g e) (hm : s.mutex = none) (ht : ∀ x, s.tab x ≠ .part) (hf : s.tab g = .full) (n : Nat) :
    ∃ s' o, schedRun sfi tis s (List.replicate (n + 1) (.go i)) = .ok (s', [(i, f, t, o)]) ∧ Done sfi tis fields s i t s.field g s' o := by
  obtain ⟨x, e1, h1, h2⟩ := scan_ok hd he t
  have hg : goStep sfi tis s i = .ok ({ s with te := upd s.te i (some x.1), pc := upd s.pc i .idle }, [(i, f, t, found t x)]) := by
    unfold goStep
    simp only [hpc, hte, Res.ofOption, Res.ok_bind, he.fieldEq, hf, if_true, e1]
    rfl
  refine ⟨_, _, go_step hg (idle_run _ i (upd_self ..) n), ⟨rfl, ⟨x.1, upd_self .., h1⟩, fun j hj => ⟨upd_ne _ _ hj, upd_ne _ _ hj⟩, upd_self .., hm, ht, h2, fun _ => hf⟩⟩

theorem check_run (hd : DictOK sfi tis fields) (s : Sys) (i : Nat) (f : Int) (t : Term) (g : Int) (e : STE) (hpc : s.pc i = .check f t) (hte : s.te i = some e) (he : TeOK sfi tis fields g e) (hm : s.mutex = none) (ht : ∀ x, s.tab x ≠ .part) (n : Nat) :
    ∃ s' o, schedRun sfi tis s (List.replicate (n + 4) (.go i)) = .ok (s', [(i, f, t, o)]) ∧ Done sfi tis fields s i t s.field g s' o := by
  by_cases hsz : ∃ sti, sfi.dict g = some sti ∧ sti.size > 0
  · obtain ⟨sti, hs, hp⟩ := hsz
    by_cases htab : s.tab g = .none
    · -- allocate and fill
      have h1 : goStep sfi tis s i = .ok ({ s with pc := upd s.pc i (.lock f t) }, []) := by
        unfold goStep
        simp only [hpc, hte, Res.ofOption, Res.ok_bind, he.fieldEq, hs, hp, if_true, htab]
      let s1 : Sys := { s with pc := upd s.pc i (.lock f t) }
      have h2 : goStep sfi tis s1 i = .ok ({ s1 with mutex := some i, tab := updTab s1.tab g .part, pc := upd s1.pc i (.fill f t) }, []) := by
        have hp1 : s1.pc i = .lock f t := upd_self ..
        unfold goStep
        simp only [hp1]
        have hm1 : s1.mutex = none := hm
        have ht1 : s1.te i = some e := hte
        have hg1 : s1.tab g = .none := htab
        simp only [hm1, ht1, Res.ofOption, Res.ok_bind, he.fieldEq, hg1, if_true]
      let s2 : Sys := { s1 with mutex := some i, tab := updTab s1.tab g .part, pc := upd s1.pc i (.fill f t) }
      have h3 : goStep sfi tis s2 i = .ok ({ s2 with mutex := none, tab := updTab s2.tab g .full, pc := upd s2.pc i (.scan f t) }, []) := by
        have hp1 : s2.pc i = .fill f t := upd_self ..
        have ht1 : s2.te i = some e := hte
        unfold goStep
        simp only [hp1, ht1, Res.ofOption, Res.ok_bind, he.fieldEq]
      let s3 : Sys := { s2 with mutex := none, tab := updTab s2.tab g .full, pc := upd s2.pc i (.scan f t) }
      have ht3 : ∀ x, s3.tab x ≠ .part := by
        intro x
        show updTab (updTab s.tab g .part) g .full x ≠ .part
        unfold updTab
        by_cases hx : x = g
        · rw [if_pos hx]; decide
        · rw [if_neg hx, if_neg hx]; exact ht x
      obtain ⟨s', o, r, d⟩ := scan_run hd s3 i f t g e (upd_self ..) hte he rfl ht3 (if_pos rfl) n
      refine ⟨s', o, go_step h1 (go_step h2 (go_step h3 r)), ⟨d.field, d.te, fun j hj => ⟨(d.others j hj).1, ?_⟩, d.pc, d.mutex, d.tab, d.right, d.full⟩⟩
      rw [(d.others j hj).2]
      show upd (upd (upd s.pc i _) i _) i _ j = _
      rw [upd_ne _ _ hj, upd_ne _ _ hj, upd_ne _ _ hj]
    · have hfull : s.tab g = .full := by
        cases hx : s.tab g with
        | none => exact absurd hx htab
        | part => exact absurd hx (ht g)
        | full => rfl
      have h1 : goStep sfi tis s i = .ok ({ s with pc := upd s.pc i (.scan f t) }, []) := by
        unfold goStep
        simp only [hpc, hte, Res.ofOption, Res.ok_bind, he.fieldEq, hs, hp, if_true, hfull]
        rfl
      obtain ⟨s', o, r, d⟩ := scan_run hd { s with pc := upd s.pc i (.scan f t) } i f t g e (upd_self ..) hte he hm ht hfull (n + 2)
      refine ⟨s', o, go_step h1 r, ⟨d.field, d.te, fun j hj => ⟨(d.others j hj).1, ?_⟩, d.pc, d.mutex, d.tab, d.right, d.full⟩⟩
      rw [(d.others j hj).2]
      exact upd_ne _ _ hj
  · have h1 : goStep sfi tis s i = .ok ({ s with pc := upd s.pc i .idle }, [(i, f, t, none)]) := by
      unfold goStep
      simp only [hpc, hte, Res.ofOption, Res.ok_bind, he.fieldEq]
      cases hs : sfi.dict g with
      | none => rfl
      | some sti =>
        dsimp only
        rw [if_neg (fun hp => hsz ⟨sti, hs, hp⟩)]
    refine ⟨_, none, go_step h1 (idle_run _ i (upd_self ..) (n + 3)), ⟨rfl, ⟨e, hte, he⟩, fun j hj => ⟨rfl, upd_ne _ _ hj⟩, upd_self .., hm, ht, ?_, fun h => absurd h hsz⟩⟩
    exact right_empty hd t fun sti h1 h2 => hsz ⟨sti, h1, h2⟩

/-- A whole lookup of a thread, no other thread being in one: in the field of the reader its
enumerator stays where it is. -/
theorem whole_run (hd : DictOK sfi tis fields) (s : Sys) (hq : Quiet s) (i : Nat) (f : Int) (t : Term) (g : Int)
    (hte : (s.te i = none ∧ g = s.field) ∨ ∃ e, s.te i = some e ∧ TeOK sfi tis fields g e) :
    ∃ s' o, schedRun sfi tis s (whole i f t) = .ok (s', [(i, f, t, o)]) ∧ Done sfi tis fields s i t f (if f = s.field then g else f) s' o := by
  let s0 : Sys := { s with pc := upd s.pc i (.enum f t) }
  have h0 : schedStep sfi tis s (.call i f t) = .ok (s0, []) := by
    unfold schedStep
    simp only [hq.pc i]
    rfl
  obtain ⟨e, hnew, he⟩ : ∃ e, (match s.te i with | some e => e | none => steSetField sfi (steNew tis) s.field) = e ∧ TeOK sfi tis fields g e := by
    rcases hte with ⟨h1, h2⟩ | ⟨e, h1, h2⟩
    · rw [h1]; exact ⟨_, rfl, h2 ▸ teOK_new hd _⟩
    · rw [h1]; exact ⟨_, rfl, h2⟩
  let s1 : Sys := { s0 with te := upd s.te i (some e), pc := upd s0.pc i (.compare f t) }
  have h1 : goStep sfi tis s0 i = .ok (s1, []) := by
    have hp : s0.pc i = .enum f t := upd_self ..
    unfold goStep
    simp only [hp]
    exact congrArg (fun e => Res.ok (({ s0 with te := upd s.te i (some e), pc := upd s0.pc i (.compare f t) } : Sys), ([] : List Answer))) hnew
  have hp1 : s1.pc i = .compare f t := upd_self ..
  have ht1 : s1.te i = some e := upd_self ..
  by_cases hf : f = s.field
  · rw [if_pos hf]
    let s2 : Sys := { s1 with pc := upd s1.pc i (.check f t) }
    have h2 : goStep sfi tis s1 i = .ok (s2, []) := by
      unfold goStep
      simp only [hp1, ht1, Res.ofOption, Res.ok_bind]
      rw [if_neg (fun hc => hc hf)]
    obtain ⟨s', o, r, d⟩ := check_run hd s2 i f t g e (upd_self ..) ht1 he hq.mutex hq.tab 1
    refine ⟨s', o, ?_, ⟨d.field.trans hf.symm, d.te, fun j hj => ?_, d.pc, d.mutex, d.tab, d.right, d.full⟩⟩
    · unfold whole
      rw [schedRun, h0, Res.ok_bind, go_step h1 (go_step h2 r)]
      rfl
    · have hde := d.others j hj
      refine ⟨hde.1.trans (upd_ne _ _ hj), hde.2.trans ?_⟩
      show upd (upd (upd s.pc i _) i _) i _ j = _
      rw [upd_ne _ _ hj, upd_ne _ _ hj, upd_ne _ _ hj]
  · rw [if_neg hf]
    let s2 : Sys := { s1 with te := upd s1.te i (some (steSetField sfi e f)), pc := upd s1.pc i (.write f t) }
    have h2 : goStep sfi tis s1 i = .ok (s2, []) := by
      unfold goStep
      simp only [hp1, ht1, Res.ofOption, Res.ok_bind]
      rw [if_pos hf]
    let s3 : Sys := { s2 with field := f, pc := upd s2.pc i (.check f t) }
    have h3 : goStep sfi tis s2 i = .ok (s3, []) := by
      have hp2 : s2.pc i = .write f t := upd_self ..
      unfold goStep
      simp only [hp2]
      rfl
    obtain ⟨s', o, r, d⟩ := check_run hd s3 i f t f (steSetField sfi e f) (upd_self ..) (upd_self ..) (teOK_set hd he f) hq.mutex hq.tab 0
    refine ⟨s', o, ?_, ⟨d.field, d.te, fun j hj => ?_, d.pc, d.mutex, d.tab, d.right, d.full⟩⟩
    · unfold whole
      rw [schedRun, h0, Res.ok_bind, go_step h1 (go_step h2 (go_step h3 r))]
      rfl
    · have hde := d.others j hj
      refine ⟨hde.1.trans ?_, hde.2.trans ?_⟩
      · show upd (upd s.te i _) i _ j = _
        rw [upd_ne _ _ hj, upd_ne _ _ hj]
      · show upd (upd (upd (upd s.pc i _) i _) i _) i _ j = _
        rw [upd_ne _ _ hj, upd_ne _ _ hj, upd_ne _ _ hj, upd_ne _ _ hj]

end Ferret.Dict
