import Verif.Lemmas.Lookup

/-! C57: lookups of terms through one reader by several threads. -/

namespace Ferret.Props
open Ferret Ferret.Expand Ferret.Dict

/-- A lookup: the thread, the field and the term. -/
abbrev Lookup := Nat × Int × Term

/-- Lookups are made one at a time, and in such an order that a lookup in the field that was looked up
last, by any thread, is by a thread whose own last lookup, if it made any, was in that field as well. -/
def Disciplined (qs : List Lookup) : Prop :=
  ∀ (k : Nat) (p q : Lookup), qs[k]? = some p → qs[k + 1]? = some q → p.2.1 = q.2.1 →
    ∀ r, (qs.take (k + 1)).reverse.find? (fun r => decide (r.1 = q.1)) = some r → r.2.1 = q.2.1

/-- All lookups by one thread are in order, as are all lookups in one field. -/
theorem disciplined_one_thread (qs : List Lookup) (i : Nat) (h : ∀ q ∈ qs, q.1 = i) : Disciplined qs := by
  intro k p q hp hq hf r hr
  have hk : k < qs.length := (List.getElem?_eq_some_iff.1 hp).1
  have htake : (qs.take (k + 1)).reverse = p :: (qs.take k).reverse := by
    rw [List.take_add_one, hp]
    simp
  rw [htake, List.find?_cons_of_pos (by simp [h p (List.mem_of_getElem? hp), h q (List.mem_of_getElem? hq)])] at hr
  cases hr
  exact hf

theorem disciplined_one_field (qs : List Lookup) (f : Int) (h : ∀ q ∈ qs, q.2.1 = f) : Disciplined qs := by
  intro k p q hp hq _ r hr
  have := List.mem_of_find?_eq_some hr
  rw [List.mem_reverse] at this
  rw [h r (List.mem_of_mem_take this), h q (List.mem_of_getElem? hq)]

/-! ### Whole lookups -/

/-- The fields that lookups search: the one asked for, unless that is the field asked for last; then
the one this thread searched last. -/
def searchedIn : Int → (Nat → Option Int) → List Lookup → List Int
  | _, _, [] => []
  | last, own, (i, f, _) :: qs =>
    let g := if f = last then (own i).getD f else f
    g :: searchedIn f (upd own i (some g)) qs

/-- The threads and the reader agree with what was searched. -/
structure Agree (sfi : SFI) (tis : List Byte) (fields : List (Nat × List (Term × TI))) (last : Int) (own : Nat → Option Int) (s : Sys) : Prop where
  quiet : Quiet s
  field : s.field = last
  te : ∀ i, match own i with
    | none => s.te i = none
    | some g => ∃ e, s.te i = some e ∧ TeOK sfi tis fields g e

theorem wholes_spec {sfi : SFI} {tis : List Byte} {fields : List (Nat × List (Term × TI))} (hd : DictOK sfi tis fields) : ∀ (qs : List Lookup) (last : Int) (own : Nat → Option Int) (s : Sys), Agree sfi tis fields last own s →
    ∃ s' os, schedRun sfi tis s (qs.flatMap fun q => whole q.1 q.2.1 q.2.2) = .ok (s', List.zipWith (fun q o => (q.1, q.2.1, q.2.2, o)) qs os) ∧ os.length = qs.length ∧
      ∀ (k : Nat) q g o, qs[k]? = some q → (searchedIn last own qs)[k]? = some g → os[k]? = some o → Right sfi.skipInterval fields g q.2.2 o := by
  intro qs
  induction qs with
  | nil => intro last own s _; exact ⟨s, [], rfl, rfl, fun k q g o h => by simp at h⟩
  | cons q qs ih =>
    intro last own s ha
    obtain ⟨i, f, t⟩ := q
    obtain ⟨g0, hg0, hte⟩ : ∃ g0, (if f = s.field then g0 else f) = (if f = last then (own i).getD f else f) ∧
        ((s.te i = none ∧ g0 = s.field) ∨ ∃ e, s.te i = some e ∧ TeOK sfi tis fields g0 e) := by
      have := ha.te i
      cases ho : own i with
      | none =>
        rw [ho] at this
        refine ⟨s.field, ?_, Or.inl ⟨this, rfl⟩⟩
        rw [ha.field]
        by_cases hf : f = last
        · rw [if_pos hf, if_pos hf, hf]; rfl
        · rw [if_neg hf, if_neg hf]
      | some g =>
        rw [ho] at this
        exact ⟨g, by rw [ha.field]; rfl, Or.inr this⟩
    obtain ⟨s1, o, r1, d⟩ := whole_run hd s ha.quiet i f t g0 hte
    rw [hg0] at d
    have ha' : Agree sfi tis fields f (upd own i (some (if f = last then (own i).getD f else f))) s1 := by
      refine ⟨⟨fun j => ?_, d.mutex, d.tab⟩, d.field, fun j => ?_⟩
      · by_cases hj : j = i
        · rw [hj]; exact d.pc
        · rw [(d.others j hj).2]; exact ha.quiet.pc j
      · by_cases hj : j = i
        · rw [hj, upd_self]; exact d.te
        · rw [upd_ne _ _ hj, (d.others j hj).1]; exact ha.te j
    obtain ⟨s', os, r2, l2, g2⟩ := ih _ _ s1 ha'
    refine ⟨s', o :: os, ?_, by simp [l2], ?_⟩
    · rw [List.flatMap_cons, schedRun_append, r1, Res.ok_bind]
      dsimp only
      rw [r2]
      rfl
    · intro k q g o' hq hg ho
      cases k with
      | zero =>
        simp only [searchedIn, List.getElem?_cons_zero, Option.some.injEq] at hq hg ho
        subst hq hg ho
        exact d.right
      | succ k =>
        simp only [searchedIn, List.getElem?_cons_succ] at hq hg ho
        exact g2 k q g o' hq hg ho

theorem agree_open (sfi : SFI) (tis : List Byte) (fields : List (Nat × List (Term × TI))) : Agree sfi tis fields (-1) (fun _ => none) sysOpen :=
  ⟨⟨fun _ => rfl, rfl, fun _ => by intro h; cases h⟩, rfl, fun _ => rfl⟩

/-- The reader of a dictionary. -/
theorem c57_dict (ii si : Nat) (fields : List (Nat × List (Term × TI))) (h : WritableDict ii si fields) :
    ∃ fs, writeDict ii si fields = .ok fs ∧ (fs.tis.length < 2 ^ 64 → fs.tix.length < 2 ^ 64 →
      ∃ sfi, sfiOpen fs = .ok sfi ∧ sfi.skipInterval = si ∧ DictOK sfi fs.tis fields) := by
  obtain ⟨fs, e1, h1⟩ := dict_spec ii si fields h.fit
  refine ⟨fs, e1, fun l1 l2 => ?_⟩
  obtain ⟨sfi, e2, hsi, -, hd⟩ := h1 l1 l2
  exact ⟨sfi, e2, hsi, fun f => ⟨h.asc f, hd f⟩⟩

/-- **C57, lookups one at a time: the field that is searched.** Every lookup searches the field asked
for, unless that is the field any thread asked for last: then it searches the field this thread
searched last. -/
theorem c57_searched (ii si : Nat) (fields : List (Nat × List (Term × TI))) (h : WritableDict ii si fields) :
    ∃ fs, writeDict ii si fields = .ok fs ∧ (fs.tis.length < 2 ^ 64 → fs.tix.length < 2 ^ 64 →
      ∃ sfi, sfiOpen fs = .ok sfi ∧ ∀ qs : List Lookup, ∃ s os,
        schedRun sfi fs.tis sysOpen (qs.flatMap fun q => whole q.1 q.2.1 q.2.2) = .ok (s, List.zipWith (fun q o => (q.1, q.2.1, q.2.2, o)) qs os) ∧ os.length = qs.length ∧
        ∀ (k : Nat) q g o, qs[k]? = some q → (searchedIn (-1) (fun _ => none) qs)[k]? = some g → os[k]? = some o →
          o.map (fun ti => seen si (q.2.2, ti)) = (entryOf fields g q.2.2).map (seen si)) := by
  obtain ⟨fs, e1, h1⟩ := c57_dict ii si fields h
  refine ⟨fs, e1, fun l1 l2 => ?_⟩
  obtain ⟨sfi, e2, hsi, hd⟩ := h1 l1 l2
  refine ⟨sfi, e2, fun qs => ?_⟩
  obtain ⟨s, os, r, l, g⟩ := wholes_spec hd qs _ _ _ (agree_open sfi fs.tis fields)
  refine ⟨s, os, r, l, fun k q gg o hq hg ho => ?_⟩
  have := g k q gg o hq hg ho
  rwa [hsi] at this

/-- A thread has searched what it asked for last. -/
theorem searchedIn_disciplined : ∀ (qs pre : List Lookup) (last : Int) (own : Nat → Option Int), Disciplined (pre ++ qs) →
    (∀ p, pre.getLast? = some p → last = p.2.1) → (pre = [] → ∀ i, own i = none) →
    (∀ i, own i = (pre.reverse.find? fun r => decide (r.1 = i)).map (·.2.1)) → searchedIn last own qs = qs.map (·.2.1) := by
  intro qs
  induction qs with
  | nil => intros; rfl
  | cons q qs ih =>
    intro pre last own hd hlast hnil hown
    obtain ⟨i, f, t⟩ := q
    have hg : (if f = last then (own i).getD f else f) = f := by
      by_cases hf : f = last
      · rw [if_pos hf]
        rcases List.eq_nil_or_concat pre with hp | ⟨pre', p, hp⟩
        · rw [hnil hp i]; rfl
        · rw [List.concat_eq_append] at hp
          cases ho : own i with
          | none => rfl
          | some g =>
            have hl := hlast p (by rw [hp]; simp)
            have h1 := hd pre'.length p (i, f, t) (by rw [hp]; simp) (by rw [hp]; simp) (by rw [← hl]; exact hf.symm)
            rw [hown i] at ho
            cases hfi : pre.reverse.find? (fun r => decide (r.1 = i)) with
            | none => rw [hfi] at ho; cases ho
            | some r =>
              rw [hfi] at ho
              have htake : (pre ++ (i, f, t) :: qs).take (pre'.length + 1) = pre := by
                rw [hp, List.take_append_of_le_length (by simp), List.take_of_length_le (by simp)]
              rw [htake] at h1
              have := h1 r hfi
              simp only [Option.map_some, Option.some.injEq] at ho
              rw [← ho]
              exact this
      · rw [if_neg hf]
    unfold searchedIn
    simp only [hg]
    rw [List.map_cons]
    congr 1
    refine ih (pre ++ [(i, f, t)]) f _ (by rw [List.append_assoc]; exact hd) ?_ ?_ ?_
    · intro p hp
      simp only [List.getLast?_concat, Option.some.injEq] at hp
      rw [← hp]
    · intro hc; simp at hc
    · intro j
      rw [List.reverse_append]
      show upd own i (some f) j = (List.find? _ ((i, f, t) :: pre.reverse)).map _
      by_cases hj : j = i
      · rw [hj, upd_self, List.find?_cons_of_pos (by simp)]
        rfl
      · rw [upd_ne _ _ hj, List.find?_cons_of_neg (by simp [Ne.symm hj]), hown j]

/-- **C57, lookups one at a time.** For every dictionary, any number of threads and every disciplined
history of whole lookups, every lookup gives exactly the entry of its term. All histories of one
thread, and all histories of any number of threads in one field, are disciplined. Missing: other
histories (`c57_violated_fields`) and lookups that are interleaved before the index is read
(`c57_violated_first`, `c57_violated_table`). -/
theorem c57_atomic_partial (ii si : Nat) (fields : List (Nat × List (Term × TI))) (h : WritableDict ii si fields) :
    ∃ fs, writeDict ii si fields = .ok fs ∧ (fs.tis.length < 2 ^ 64 → fs.tix.length < 2 ^ 64 →
      ∃ sfi, sfiOpen fs = .ok sfi ∧ ∀ qs : List Lookup, Disciplined qs → ∃ s os,
        schedRun sfi fs.tis sysOpen (qs.flatMap fun q => whole q.1 q.2.1 q.2.2) = .ok (s, List.zipWith (fun q o => (q.1, q.2.1, q.2.2, o)) qs os) ∧ os.length = qs.length ∧
        ∀ (k : Nat) q o, qs[k]? = some q → os[k]? = some o →
          o.map (fun ti => seen si (q.2.2, ti)) = (entryOf fields q.2.1 q.2.2).map (seen si)) := by
  obtain ⟨fs, e1, h1⟩ := c57_searched ii si fields h
  refine ⟨fs, e1, fun l1 l2 => ?_⟩
  obtain ⟨sfi, e2, h2⟩ := h1 l1 l2
  refine ⟨sfi, e2, fun qs hdis => ?_⟩
  obtain ⟨s, os, r, l, g⟩ := h2 qs
  refine ⟨s, os, r, l, fun k q o hq ho => g k q q.2.1 o hq ?_ ho⟩
  rw [searchedIn_disciplined qs [] (-1) (fun _ => none) hdis (by simp) (fun _ _ => rfl) (fun _ => rfl), List.getElem?_map, hq]
  rfl

/-! ### Interleaved lookups -/

/-- Only lookups in field `f` are asked for. -/
def OnlyIn (f : Int) (xs : List Sched) : Prop := ∀ i g t, Sched.call i g t ∈ xs → g = f

/-- A thread of lookups in field `f` only. -/
def ThreadOK (sfi : SFI) (tis : List Byte) (fields : List (Nat × List (Term × TI))) (f : Int) (s : Sys) (i : Nat) : Prop :=
  (s.te i = none ∨ ∃ e, s.te i = some e ∧ TeOK sfi tis fields f e) ∧
  match s.pc i with
  | .idle => True
  | .enum g _ => g = f
  | .compare g _ | .check g _ => g = f ∧ s.te i ≠ none
  | .scan g _ => g = f ∧ s.te i ≠ none ∧ s.tab f = .full
  | _ => False

structure Warm (sfi : SFI) (tis : List Byte) (fields : List (Nat × List (Term × TI))) (f : Int) (s : Sys) : Prop where
  field : s.field = f
  full : (∃ sti, sfi.dict f = some sti ∧ sti.size > 0) → s.tab f = .full
  thread : ∀ i, ThreadOK sfi tis fields f s i

/-- How many steps a thread still has to take. -/
def stepsLeft : PC → Nat
  | .idle => 0
  | .enum _ _ => 4
  | .compare _ _ => 3
  | .check _ _ => 2
  | .scan _ _ => 1
  | _ => 7

/-- The term a thread is looking for. -/
def pending : PC → Option Term
  | .idle => none
  | .enum _ t | .compare _ t | .write _ t | .check _ t | .lock _ t | .fill _ t | .scan _ t => some t

theorem ThreadOK.of_eq {sfi : SFI} {tis : List Byte} {fields : List (Nat × List (Term × TI))} {f : Int} {s s' : Sys} {j : Nat} (h : ThreadOK sfi tis fields f s j) (h1 : s'.te j = s.te j) (h2 : s'.pc j = s.pc j) (h3 : s'.tab = s.tab) : ThreadOK sfi tis fields f s' j := by
  unfold ThreadOK at *
  rw [h1, h2, h3]
  exact h

/-- What a step of a thread does. -/
theorem warm_go {sfi : SFI} {tis : List Byte} {fields : List (Nat × List (Term × TI))} (hd : DictOK sfi tis fields) {f : Int} {s : Sys} (hw : Warm sfi tis fields f s) (i : Nat) :
    ∃ s' as, goStep sfi tis s i = .ok (s', as) ∧ Warm sfi tis fields f s' ∧ (∀ j, j ≠ i → s'.pc j = s.pc j) ∧
      stepsLeft (s'.pc i) ≤ stepsLeft (s.pc i) - 1 ∧
      ((as = [] ∧ pending (s'.pc i) = pending (s.pc i)) ∨ ∃ t o, pending (s.pc i) = some t ∧ s'.pc i = .idle ∧ as = [(i, f, t, o)] ∧ Right sfi.skipInterval fields f t o) := by
  obtain ⟨ht, hp⟩ := hw.thread i
  have frame : ∀ (te' : Nat → Option STE) (pc' : Nat → PC), (∀ j, j ≠ i → te' j = s.te j ∧ pc' j = s.pc j) → ThreadOK sfi tis fields f { s with te := te', pc := pc' } i →
      Warm sfi tis fields f { s with te := te', pc := pc' } := fun te' pc' ho hi =>
    ⟨hw.field, hw.full, fun j => if hj : j = i then hj ▸ hi else (hw.thread j).of_eq (ho j hj).1 (ho j hj).2 rfl⟩
  cases hpc : s.pc i with
  | idle =>
    refine ⟨s, [], by unfold goStep; simp only [hpc], hw, fun _ _ => rfl, by simp [hpc, stepsLeft], Or.inl ⟨rfl, by rw [hpc]⟩⟩
  | write g t => rw [hpc] at hp; exact hp.elim
  | lock g t => rw [hpc] at hp; exact hp.elim
  | fill g t => rw [hpc] at hp; exact hp.elim
  | enum g t =>
    rw [hpc] at hp
    obtain rfl : g = f := hp
    obtain ⟨e, hnew, he⟩ : ∃ e, (match s.te i with | some e => e | none => steSetField sfi (steNew tis) s.field) = e ∧ TeOK sfi tis fields g e := by
      rcases ht with h1 | ⟨e, h1, h2⟩
      · rw [h1]; exact ⟨_, rfl, hw.field ▸ teOK_new hd _⟩
      · rw [h1]; exact ⟨_, rfl, h2⟩
    have h1 : goStep sfi tis s i = .ok ({ s with te := upd s.te i (some e), pc := upd s.pc i (.compare g t) }, []) := by
      unfold goStep
      simp only [hpc]
      exact congrArg (fun e => Res.ok (({ s with te := upd s.te i (some e), pc := upd s.pc i (.compare g t) } : Sys), ([] : List Answer))) hnew
    refine ⟨_, _, h1, frame _ _ (fun j hj => ⟨upd_ne _ _ hj, upd_ne _ _ hj⟩) ?_, fun j hj => upd_ne _ _ hj, ?_, Or.inl ⟨rfl, ?_⟩⟩
    · unfold ThreadOK
      simp only [upd_self]
      exact ⟨Or.inr ⟨e, rfl, he⟩, trivial, fun h => by cases h⟩
    · simp only [upd_self, stepsLeft]; omega
    · simp only [upd_self, pending]
  | compare g t =>
    rw [hpc] at hp
    obtain ⟨rfl, hne⟩ := hp
    obtain ⟨e, h2, he⟩ := ht.resolve_left hne
    have h1 : goStep sfi tis s i = .ok ({ s with te := s.te, pc := upd s.pc i (.check g t) }, []) := by
      unfold goStep
      simp only [hpc, h2, Res.ofOption, Res.ok_bind]
      rw [if_neg (fun hc => hc hw.field.symm)]
    refine ⟨_, _, h1, frame _ _ (fun j hj => ⟨rfl, upd_ne _ _ hj⟩) ?_, fun j hj => upd_ne _ _ hj, ?_, Or.inl ⟨rfl, ?_⟩⟩
    · unfold ThreadOK
      simp only [upd_self]
      exact ⟨ht, trivial, hne⟩
    · simp only [upd_self, stepsLeft]; omega
    · simp only [upd_self, pending]
  | check g t =>
    rw [hpc] at hp
    obtain ⟨rfl, hne⟩ := hp
    obtain ⟨e, h2, he⟩ := ht.resolve_left hne
    by_cases hsz : ∃ sti, sfi.dict g = some sti ∧ sti.size > 0
    · have hfull := hw.full hsz
      obtain ⟨sti, hs, hpos⟩ := hsz
      have h1 : goStep sfi tis s i = .ok ({ s with te := s.te, pc := upd s.pc i (.scan g t) }, []) := by
        unfold goStep
        simp only [hpc, h2, Res.ofOption, Res.ok_bind, he.fieldEq, hs, hpos, if_true, hfull]
        rfl
      refine ⟨_, _, h1, frame _ _ (fun j hj => ⟨rfl, upd_ne _ _ hj⟩) ?_, fun j hj => upd_ne _ _ hj, ?_, Or.inl ⟨rfl, ?_⟩⟩
      · unfold ThreadOK
        simp only [upd_self]
        exact ⟨ht, trivial, hne, hfull⟩
      · simp only [upd_self, stepsLeft]; omega
      · simp only [upd_self, pending]
    · have h1 : goStep sfi tis s i = .ok ({ s with te := s.te, pc := upd s.pc i .idle }, [(i, g, t, none)]) := by
        unfold goStep
        simp only [hpc, h2, Res.ofOption, Res.ok_bind, he.fieldEq]
        cases hs : sfi.dict g with
        | none => rfl
        | some sti =>
          dsimp only
          rw [if_neg (fun hp => hsz ⟨sti, hs, hp⟩)]
      refine ⟨_, _, h1, frame _ _ (fun j hj => ⟨rfl, upd_ne _ _ hj⟩) ?_, fun j hj => upd_ne _ _ hj, ?_, Or.inr ⟨t, none, rfl, upd_self .., rfl, right_empty hd t fun sti h1 h2 => hsz ⟨sti, h1, h2⟩⟩⟩
      · unfold ThreadOK
        simp only [upd_self]
        exact ⟨ht, trivial⟩
      · simp only [upd_self, stepsLeft]; omega
  | scan g t =>
    rw [hpc] at hp
    obtain ⟨rfl, hne, hfull⟩ := hp
    obtain ⟨e, h2, he⟩ := ht.resolve_left hne
    obtain ⟨x, e1, hx, hr⟩ := scan_ok hd he t
    have h1 : goStep sfi tis s i = .ok ({ s with te := upd s.te i (some x.1), pc := upd s.pc i .idle }, [(i, g, t, found t x)]) := by
      unfold goStep
      simp only [hpc, h2, Res.ofOption, Res.ok_bind, he.fieldEq, hfull, if_true, e1]
      rfl
    refine ⟨_, _, h1, frame _ _ (fun j hj => ⟨upd_ne _ _ hj, upd_ne _ _ hj⟩) ?_, fun j hj => upd_ne _ _ hj, ?_, Or.inr ⟨t, _, rfl, upd_self .., rfl, hr⟩⟩
    · unfold ThreadOK
      simp only [upd_self]
      exact ⟨Or.inr ⟨x.1, rfl, hx⟩, trivial⟩
    · simp only [upd_self, stepsLeft]; omega

theorem call_busy {sfi : SFI} {tis : List Byte} {s : Sys} {i : Nat} (g : Int) (t : Term) (h : s.pc i ≠ .idle) : schedStep sfi tis s (.call i g t) = .ok (s, []) := by
  unfold schedStep
  cases hx : s.pc i <;> simp only <;> exact absurd hx h

theorem call_idle {sfi : SFI} {tis : List Byte} {s : Sys} {i : Nat} (g : Int) (t : Term) (h : s.pc i = .idle) : schedStep sfi tis s (.call i g t) = .ok ({ s with pc := upd s.pc i (.enum g t) }, []) := by
  unfold schedStep
  simp only [h]

theorem warm_step {sfi : SFI} {tis : List Byte} {fields : List (Nat × List (Term × TI))} (hd : DictOK sfi tis fields) {f : Int} {s : Sys} (hw : Warm sfi tis fields f s) (x : Sched) (hx : ∀ i g t, x = .call i g t → g = f) :
    ∃ s' as, schedStep sfi tis s x = .ok (s', as) ∧ Warm sfi tis fields f s' ∧
      ∀ a ∈ as, a.2.1 = f ∧ Right sfi.skipInterval fields a.2.1 a.2.2.1 a.2.2.2 := by
  cases x with
  | go i =>
    obtain ⟨s', as, h1, h2, -, -, h3⟩ := warm_go hd hw i
    refine ⟨s', as, h1, h2, fun a ha => ?_⟩
    rcases h3 with ⟨rfl, -⟩ | ⟨t, o, -, -, rfl, hr⟩
    · cases ha
    · rw [List.mem_singleton] at ha
      subst ha
      exact ⟨rfl, hr⟩
  | call i g t =>
    obtain rfl := hx i g t rfl
    by_cases hpc : s.pc i = .idle
    · refine ⟨{ s with pc := upd s.pc i (.enum g t) }, [], call_idle g t hpc, ⟨hw.field, hw.full, fun j => ?_⟩, fun a ha => by cases ha⟩
      by_cases hj : j = i
      · subst hj
        refine ⟨(hw.thread j).1, ?_⟩
        simp only [upd_self]
      · exact (hw.thread j).of_eq rfl (upd_ne _ _ hj) rfl
    · exact ⟨s, [], call_busy g t hpc, hw, fun a ha => by cases ha⟩

theorem warm_run {sfi : SFI} {tis : List Byte} {fields : List (Nat × List (Term × TI))} (hd : DictOK sfi tis fields) {f : Int} : ∀ (xs : List Sched) (s : Sys), Warm sfi tis fields f s → OnlyIn f xs →
    ∃ s' as, schedRun sfi tis s xs = .ok (s', as) ∧ Warm sfi tis fields f s' ∧ ∀ a ∈ as, a.2.1 = f ∧ Right sfi.skipInterval fields a.2.1 a.2.2.1 a.2.2.2 := by
  intro xs
  induction xs with
  | nil => intro s hw _; exact ⟨s, [], rfl, hw, fun a ha => by cases ha⟩
  | cons x xs ih =>
    intro s hw ho
    obtain ⟨s1, as, h1, h2, h3⟩ := warm_step hd hw x fun i g t hx => ho i g t (hx ▸ List.mem_cons_self ..)
    obtain ⟨s2, as', h4, h5, h6⟩ := ih s1 h2 fun i g t hx => ho i g t (List.mem_cons_of_mem _ hx)
    refine ⟨s2, as ++ as', by rw [schedRun, h1, Res.ok_bind, h4]; rfl, h5, fun a ha => ?_⟩
    rcases List.mem_append.1 ha with h | h
    · exact h3 a h
    · exact h6 a h

/-- A thread that does not ask is not answered, and one that has enough steps is. -/
theorem warm_quiet {sfi : SFI} {tis : List Byte} {fields : List (Nat × List (Term × TI))} (hd : DictOK sfi tis fields) {f : Int} (i : Nat) : ∀ (xs : List Sched) (s s' : Sys) (as : List Answer), Warm sfi tis fields f s → OnlyIn f xs → (∀ g t, Sched.call i g t ∉ xs) → s.pc i = .idle →
    schedRun sfi tis s xs = .ok (s', as) → as.filter (fun a => decide (a.1 = i)) = [] ∧ s'.pc i = .idle := by
  intro xs
  induction xs with
  | nil => intro s s' as _ _ _ hi h; cases h; exact ⟨rfl, hi⟩
  | cons x xs ih =>
    intro s s' as hw ho hn hi h
    obtain ⟨s1, as1, h1, h2, h3⟩ := warm_step hd hw x fun i g t hx => ho i g t (hx ▸ List.mem_cons_self ..)
    rw [schedRun, h1, Res.ok_bind] at h
    obtain ⟨r, h4, h5⟩ := (Res.bind_eq_ok ..).1 h
    cases h5
    have hstep : s1.pc i = .idle ∧ as1.filter (fun a => decide (a.1 = i)) = [] := by
      cases x with
      | call j g t =>
        have hj : j ≠ i := fun h => hn g t (h ▸ List.mem_cons_self ..)
        by_cases hpc : s.pc j = .idle
        · rw [call_idle g t hpc] at h1
          cases h1
          exact ⟨by rw [← hi]; exact upd_ne _ _ (Ne.symm hj), rfl⟩
        · have : s1 = s ∧ as1 = [] := by
            rw [call_busy g t hpc] at h1
            cases h1; exact ⟨rfl, rfl⟩
          rw [this.1, this.2]
          exact ⟨hi, rfl⟩
      | go j =>
        obtain ⟨s2, as2, g1, -, g2, g3, g4⟩ := warm_go hd hw j
        have h1' : goStep sfi tis s j = .ok (s1, as1) := h1
        rw [g1] at h1'
        cases h1'
        by_cases hj : j = i
        · subst hj
          rcases g4 with ⟨rfl, hp⟩ | ⟨t, o, hp, -⟩
          · rw [hi] at hp
            refine ⟨?_, rfl⟩
            cases hx : s1.pc j <;> first | rfl | (rw [hx] at hp; cases hp)
          · rw [hi] at hp; cases hp
        · rw [g2 i (Ne.symm hj)]
          refine ⟨hi, ?_⟩
          rcases g4 with ⟨rfl, hp⟩ | ⟨t, o, -, -, rfl, -⟩
          · rfl
          · simp [hj]
    obtain ⟨h6, h7⟩ := ih s1 r.1 r.2 h2 (fun i g t hx => ho i g t (List.mem_cons_of_mem _ hx)) (fun g t hx => hn g t (List.mem_cons_of_mem _ hx)) hstep.1 h4
    exact ⟨by rw [List.filter_append, hstep.2, h6]; rfl, h7⟩

theorem warm_answer {sfi : SFI} {tis : List Byte} {fields : List (Nat × List (Term × TI))} (hd : DictOK sfi tis fields) {f : Int} (i : Nat) (t : Term) : ∀ (xs : List Sched) (s s' : Sys) (as : List Answer), Warm sfi tis fields f s → OnlyIn f xs → (∀ g t, Sched.call i g t ∉ xs) → pending (s.pc i) = some t → stepsLeft (s.pc i) ≤ xs.count (.go i) →
    schedRun sfi tis s xs = .ok (s', as) → ∃ o, as.filter (fun a => decide (a.1 = i)) = [(i, f, t, o)] ∧ Right sfi.skipInterval fields f t o := by
  intro xs
  induction xs with
  | nil =>
    intro s s' as _ _ _ hp hs h
    cases hx : s.pc i <;> rw [hx] at hp hs <;> simp [pending, stepsLeft] at hp hs
  | cons x xs ih =>
    intro s s' as hw ho hn hp hs h
    obtain ⟨s1, as1, h1, h2, h3⟩ := warm_step hd hw x fun i g t hx => ho i g t (hx ▸ List.mem_cons_self ..)
    rw [schedRun, h1, Res.ok_bind] at h
    obtain ⟨r, h4, h5⟩ := (Res.bind_eq_ok ..).1 h
    cases h5
    have ho' : OnlyIn f xs := fun i g t hx => ho i g t (List.mem_cons_of_mem _ hx)
    have hn' : ∀ g t, Sched.call i g t ∉ xs := fun g t hx => hn g t (List.mem_cons_of_mem _ hx)
    have other : s1.pc i = s.pc i → as1.filter (fun a => decide (a.1 = i)) = [] → x ≠ .go i → ∃ o, (as1 ++ r.2).filter (fun a => decide (a.1 = i)) = [(i, f, t, o)] ∧ Right sfi.skipInterval fields f t o := by
      intro e1 e2 e3
      rw [List.count_cons_of_ne e3] at hs
      obtain ⟨o, h6, h7⟩ := ih s1 r.1 r.2 h2 ho' hn' (by rw [e1]; exact hp) (by rw [e1]; exact hs) h4
      exact ⟨o, by rw [List.filter_append, e2, h6]; rfl, h7⟩
    cases x with
    | call j g t =>
      have hj : j ≠ i := fun h => hn g t (h ▸ List.mem_cons_self ..)
      by_cases hpc : s.pc j = .idle
      · rw [call_idle g t hpc] at h1
        cases h1
        exact other (upd_ne _ _ (Ne.symm hj)) rfl (by intro h; cases h)
      · have : s1 = s ∧ as1 = [] := by
          rw [call_busy g t hpc] at h1
          cases h1; exact ⟨rfl, rfl⟩
        exact other (by rw [this.1]) (by rw [this.2]; rfl) (by intro h; cases h)
    | go j =>
      obtain ⟨s2, as2, g1, -, g2, g3, g4⟩ := warm_go hd hw j
      have h1' : goStep sfi tis s j = .ok (s1, as1) := h1
      rw [g1] at h1'
      cases h1'
      by_cases hj : j = i
      · subst hj
        rw [List.count_cons_self] at hs
        rcases g4 with ⟨rfl, hp2⟩ | ⟨t', o, hp2, hi, rfl, hr⟩
        · obtain ⟨o, h6, h7⟩ := ih s1 r.1 r.2 h2 ho' hn' (hp2.trans hp) (by omega) h4
          exact ⟨o, by rw [List.filter_append, h6]; rfl, h7⟩
        · rw [hp] at hp2
          cases hp2
          obtain ⟨h6, -⟩ := warm_quiet hd j xs s1 r.1 r.2 h2 ho' hn' hi h4
          exact ⟨o, by rw [List.filter_append, h6]; simp, hr⟩
      · refine other (g2 i (Ne.symm hj)) ?_ (by intro h; cases h; exact hj rfl)
        rcases g4 with ⟨rfl, hp⟩ | ⟨t, o, -, -, rfl, -⟩
        · rfl
        · simp [hj]

theorem warm_start {sfi : SFI} {tis : List Byte} {fields : List (Nat × List (Term × TI))} (hd : DictOK sfi tis fields) (i : Nat) (f : Int) (t : Term) :
    ∃ s o, schedRun sfi tis sysOpen (whole i f t) = .ok (s, [(i, f, t, o)]) ∧ Warm sfi tis fields f s ∧ (∀ j, s.pc j = .idle) ∧ Right sfi.skipInterval fields f t o := by
  obtain ⟨s, o, r, d⟩ := whole_run hd sysOpen (agree_open sfi tis fields).quiet i f t (-1) (Or.inl ⟨rfl, rfl⟩)
  have hg : (if f = sysOpen.field then (-1 : Int) else f) = f := by
    by_cases h : f = sysOpen.field
    · rw [if_pos h, h]; rfl
    · rw [if_neg h]
  rw [hg] at d
  have hidle : ∀ j, s.pc j = .idle := fun j => by
    by_cases hj : j = i
    · rw [hj]; exact d.pc
    · rw [(d.others j hj).2]; rfl
  refine ⟨s, o, r, ⟨d.field, d.full, fun j => ⟨?_, ?_⟩⟩, hidle, d.right⟩
  · by_cases hj : j = i
    · rw [hj]; exact Or.inr d.te
    · rw [(d.others j hj).1]; exact Or.inl rfl
  · rw [hidle j]; trivial

/-- **C57, interleaved lookups in one field.** Once a lookup in a field has been made, any number of
threads, interleaved in any way, get right answers in that field, undisturbed by one another. -/
theorem c57_warm_partial (ii si : Nat) (fields : List (Nat × List (Term × TI))) (h : WritableDict ii si fields) :
    ∃ fs, writeDict ii si fields = .ok fs ∧ (fs.tis.length < 2 ^ 64 → fs.tix.length < 2 ^ 64 →
      ∃ sfi, sfiOpen fs = .ok sfi ∧ ∀ (i : Nat) (f : Int) (t : Term) (xs : List Sched), OnlyIn f xs →
        ∃ s as, schedRun sfi fs.tis sysOpen (whole i f t ++ xs) = .ok (s, as) ∧
          ∀ a ∈ as, a.2.1 = f ∧ a.2.2.2.map (fun ti => seen si (a.2.2.1, ti)) = (entryOf fields f a.2.2.1).map (seen si)) := by
  obtain ⟨fs, e1, h1⟩ := c57_dict ii si fields h
  refine ⟨fs, e1, fun l1 l2 => ?_⟩
  obtain ⟨sfi, e2, rfl, hd⟩ := h1 l1 l2
  refine ⟨sfi, e2, fun i f t xs ho => ?_⟩
  obtain ⟨s, o, r, hw, -, hr⟩ := warm_start hd i f t
  obtain ⟨s', as, r2, -, h3⟩ := warm_run hd xs s hw ho
  refine ⟨s', (i, f, t, o) :: as, ?_, fun a ha => ?_⟩
  · rw [schedRun_append, r, Res.ok_bind]
    dsimp only
    rw [r2]
    rfl
  · rcases List.mem_cons.1 ha with rfl | ha
    · exact ⟨rfl, hr⟩
    · obtain ⟨g1, g2⟩ := h3 a ha
      unfold Right at g2
      rw [g1] at g2
      exact ⟨g1, g2⟩

/-- **C57, every lookup is answered.** In such an interleaving a thread that asks, when it has its last
answer, gets one answer to it within four of its own steps, whatever the others do. -/
theorem c57_answered_partial (ii si : Nat) (fields : List (Nat × List (Term × TI))) (h : WritableDict ii si fields) :
    ∃ fs, writeDict ii si fields = .ok fs ∧ (fs.tis.length < 2 ^ 64 → fs.tix.length < 2 ^ 64 →
      ∃ sfi, sfiOpen fs = .ok sfi ∧ ∀ (i0 : Nat) (f : Int) (t0 : Term) (pre post : List Sched) (i : Nat) (t : Term), OnlyIn f pre → OnlyIn f post →
        (∀ g u, Sched.call i g u ∉ post) → 4 ≤ post.count (.go i) →
        ∀ s1 as1, schedRun sfi fs.tis sysOpen (whole i0 f t0 ++ pre) = .ok (s1, as1) → s1.pc i = .idle →
        ∃ s as, schedRun sfi fs.tis s1 (.call i f t :: post) = .ok (s, as) ∧
          ∃ o, as.filter (fun a => decide (a.1 = i)) = [(i, f, t, o)] ∧ o.map (fun ti => seen si (t, ti)) = (entryOf fields f t).map (seen si)) := by
  obtain ⟨fs, e1, h1⟩ := c57_dict ii si fields h
  refine ⟨fs, e1, fun l1 l2 => ?_⟩
  obtain ⟨sfi, e2, rfl, hd⟩ := h1 l1 l2
  refine ⟨sfi, e2, fun i0 f t0 pre post i t ho1 ho2 hn hc s1 as1 hrun hi => ?_⟩
  obtain ⟨s, o, r, hw, -, hr⟩ := warm_start hd i0 f t0
  rw [schedRun_append, r, Res.ok_bind] at hrun
  dsimp only at hrun
  obtain ⟨s', as, r2, hw2, h3⟩ := warm_run hd pre s hw ho1
  rw [r2, Res.ok_bind] at hrun
  cases hrun
  have ho : OnlyIn f (.call i f t :: post) := fun j g u hx => by
    rcases List.mem_cons.1 hx with hx | hx
    · cases hx; rfl
    · exact ho2 j g u hx
  obtain ⟨s2, as2, h4, h5, h6⟩ := warm_step hd hw2 (.call i f t) fun j g u hx => by cases hx; rfl
  have h4' := h4
  rw [call_idle f t hi] at h4'
  cases h4'
  obtain ⟨s3, as3, h7, -, -⟩ := warm_run hd post _ h5 ho2
  obtain ⟨o', h8, h9⟩ := warm_answer hd i t post _ s3 as3 h5 ho2 hn (by simp only [upd_self, pending]) (by simp only [upd_self, stepsLeft]; exact hc) h7
  refine ⟨s3, as3, ?_, o', h8, h9⟩
  rw [schedRun, h4, Res.ok_bind]
  dsimp only
  rw [h7]
  rfl

/-! ### The hypotheses can be met, and what goes wrong -/

/-- Two threads in two fields, disciplined. -/
example : Disciplined [(0, 0, [97]), (1, 3, [122]), (0, 0, [98]), (1, 3, []), (1, 3, [122])] := by
  intro k p q hp hq hf r hr
  match k, hp, hq, hf, hr with
  | 0, hp, hq, hf, _ => cases hp; cases hq; cases hf
  | 1, hp, hq, hf, _ => cases hp; cases hq; cases hf
  | 2, hp, hq, hf, _ => cases hp; cases hq; cases hf
  | 3, hp, hq, _, hr => cases hp; cases hq; cases hr; rfl
  | k + 4, _, hq, _, _ => simp at hq

example : OnlyIn 0 [.call 1 0 [98], .call 2 0 [97], .go 1, .go 2, .go 2, .go 1] := by
  intro i g t h; simp at h; rcases h with ⟨-, h, -⟩ | ⟨-, h, -⟩ <;> exact h

/-- The answers to a schedule. -/
def answers57 (xs : List Sched) : Option (List Answer) :=
  match writeDict 2 3 dict20 with
  | .ok fs => match sfiOpen fs with
    | .ok sfi => match schedRun sfi fs.tis sysOpen xs with
      | .ok r => some r.2
      | _ => none
    | _ => none
  | _ => none

/-- The reader opens and the schedule is undefined. -/
def undefined57 (xs : List Sched) : Bool :=
  match writeDict 2 3 dict20 with
  | .ok fs => match sfiOpen fs with
    | .ok sfi => match schedRun sfi fs.tis sysOpen xs with
      | .ub => true
      | _ => false
    | _ => false
  | _ => false

/-- **C57 is violated, by lookups that are not even interleaved.** Thread 0 looks up a term of field 0,
thread 1 a term of field 3, then thread 0 the same term of field 3: it is searched in field 0 and not
found. -/
theorem c57_violated_fields :
    (answers57 (whole 0 0 [97] ++ whole 1 3 [122] ++ whole 0 3 [122])).map (·.map fun a => (a.1, a.2.2.2.map (·.docFreq))) = some [(0, some 1), (1, some 5), (0, none)] ∧
    (entryOf dict20 3 [122]).map (·.2.docFreq) = some 5 := by
  decide +kernel

/-- **C57 is violated, by the first lookups.** Thread 0 makes its enumerator, thread 1 looks up a term
of field 0, and thread 0 then finds the reader in field 0, but its enumerator is in none. -/
theorem c57_violated_first :
    (answers57 ([.call 0 0 [97], .go 0] ++ whole 1 0 [97] ++ List.replicate 6 (.go 0))).map (·.map fun a => (a.1, a.2.2.2.map (·.docFreq))) = some [(1, some 1), (0, none)] ∧
    (entryOf dict20 0 [97]).map (·.2.docFreq) = some 1 := by
  decide +kernel

/-- **C57 is violated, while the index is read.** Thread 1 uses the table of index terms that thread 0
has allocated and not filled. -/
theorem c57_violated_table :
    undefined57 ((.call 0 0 [97] :: List.replicate 5 (.go 0)) ++ (.call 1 0 [97] :: List.replicate 4 (.go 1))) = true := by
  decide +kernel

#print axioms c57_searched
#print axioms c57_atomic_partial
#print axioms c57_warm_partial
#print axioms c57_answered_partial
#print axioms c57_violated_fields
#print axioms c57_violated_first
#print axioms c57_violated_table
end Ferret.Props
