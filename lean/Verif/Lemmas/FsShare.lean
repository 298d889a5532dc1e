import Verif.Spec.FsShare

/-!
Calls that do not overlap share stores as they should (C90).
-/

namespace Ferret.FsShare
open Ferret.Spec

/-- The state between calls. -/
structure ShRel (s : SharedStores) (st : State) : Prop where
  len : st.heap.length = s.fresh
  table : st.table = s.opened.map fun e => (e.1, e.2.1)
  live : ∀ e ∈ s.opened, st.heap[e.2.1]? = some (some ⟨e.1, (e.2.2 : Int)⟩) ∧ 0 < e.2.2 ∧ st.small e.2.1 = none
  paths : s.opened.Pairwise (fun a b => a.1 ≠ b.1)
  ids : s.opened.Pairwise (fun a b => a.2.1 ≠ b.2.1)
  big : st.big = none
  idle : ∀ t, st.pc t = .idle
  /-- a store that was never made is not locked -/
  clean : ∀ i, s.fresh ≤ i → st.small i = none

theorem shrel_init : ShRel noStores init where
  len := rfl
  table := rfl
  live := by simp [noStores]
  paths := List.Pairwise.nil
  ids := List.Pairwise.nil
  big := rfl
  idle := fun _ => rfl
  clean := fun _ _ => rfl

theorem find_table (l : List (Name × Nat × Nat)) (p : Name) :
    (l.map fun e => (e.1, e.2.1)).find? (fun e => e.1 == p) = (l.find? (fun e => e.1 == p)).map fun e => (e.1, e.2.1) := by
  rw [List.find?_map]
  rfl

theorem pair_unique {α β : Type} [DecidableEq β] {l : List α} {f : α → β} (h : l.Pairwise (fun a b => f a ≠ f b)) {a b : α} (ha : a ∈ l) (hb : b ∈ l) (e : f a = f b) : a = b := by
  induction l with
  | nil => simp at ha
  | cons x l ih =>
    rw [List.pairwise_cons] at h
    rcases List.mem_cons.1 ha with ha' | ha'
    · rcases List.mem_cons.1 hb with hb' | hb'
      · rw [ha', hb']
      · exact absurd (by rw [← ha']; exact e) (h.1 b hb')
    · rcases List.mem_cons.1 hb with hb' | hb'
      · exact absurd (by rw [← hb']; exact e.symm) (h.1 a ha')
      · exact ih h.2 ha' hb'

theorem getStore_ok {st : State} {i : Nat} {x : Store} (h : st.heap[i]? = some (some x)) : getStore st i = .ok x := by
  unfold getStore
  rw [h]

theorem setPC_idle {st : State} (h : ∀ t, st.pc t = .idle) (t : Nat) (p : PC) : setPC (setPC st t p) t .idle = setPC st t .idle := by
  unfold setPC
  congr 1
  funext u
  by_cases hu : u = t
  · simp [hu]
  · simp [hu]

theorem setPC_self {st : State} (h : ∀ t, st.pc t = .idle) (t : Nat) : setPC st t .idle = st := by
  unfold setPC
  cases st with
  | mk a b c d e =>
    congr 1
    funext u
    by_cases hu : u = t
    · simp only [if_pos hu]; exact (h u).symm
    · simp only [if_neg hu]

theorem finish_idle {st : State} {t n : Nat} (h : st.pc t = .idle) : finish t n st = .ok ([], st) := by
  cases n with
  | zero => rfl
  | succ n => rw [finish, if_pos h]

theorem finish_more {st st' : State} {t n : Nat} {o o' : List Obs} {st'' : State} (h : st.pc t ≠ .idle) (hs : step st (.step t) = .ok (o, st'))
    (hf : finish t n st' = .ok (o', st'')) : finish t (n + 1) st = .ok (o ++ o', st'') := by
  rw [finish, if_neg h, hs, Res.ok_bind]
  dsimp only
  rw [hf, Res.ok_bind]

theorem call_of {st st' : State} {e : Ev} {o o' : List Obs} {st'' : State} (hs : step st e = .ok (o, st')) (hf : finish e.thread 3 st' = .ok (o', st'')) :
    call st e = .ok (o ++ o', st'') := by
  rw [call, hs, Res.ok_bind]
  dsimp only
  rw [hf, Res.ok_bind]

theorem map_upd_mem {l : List (Name × Nat × Nat)} {q : Name × Nat × Nat → Bool} {g : Name × Nat × Nat → Name × Nat × Nat} {x : Name × Nat × Nat}
    (h : x ∈ l.map fun x => if q x then g x else x) : (∃ y ∈ l, q y = true ∧ x = g y) ∨ (x ∈ l ∧ q x = false) := by
  rw [List.mem_map] at h
  obtain ⟨y, hy, rfl⟩ := h
  cases hq : q y with
  | true => left; exact ⟨y, hy, hq, by simp⟩
  | false => right; simp [hy, hq]

theorem call_open {s : SharedStores} {st : State} (hr : ShRel s st) (t : Nat) (p : Name) {o : List Obs} {s' : SharedStores}
    (h : shareStep s (.openStore t p) = some (o, s')) : ∃ st', call st (.openStore t p) = .ok (o, st') ∧ ShRel s' st' := by
  simp only [shareStep] at h
  have hfind : st.table.find? (fun e => e.1 == p) = (s.opened.find? (fun e => e.1 == p)).map fun e => (e.1, e.2.1) := by rw [hr.table, find_table]
  cases hf : s.opened.find? (fun e => e.1 == p) with
  | none =>
    rw [hf] at h
    simp only [Option.some.injEq, Prod.mk.injEq] at h
    obtain ⟨rfl, rfl⟩ := h
    rw [hf, Option.map_none] at hfind
    refine ⟨{ st with heap := st.heap ++ [some ⟨p, 1⟩], table := (p, st.heap.length) :: st.table }, ?_, ?_⟩
    · unfold call
      simp only [step, hr.idle t, hr.big, hfind, ne_eq, not_true_eq_false, if_false, Res.ok_bind, finish, Ev.thread, if_true, List.append_nil, hr.len]
    · exact {
        len := by simp [hr.len]
        table := by simp [hr.table, hr.len]
        live := by
          intro e he
          rcases List.mem_cons.1 he with rfl | he
          · refine ⟨?_, by simp, hr.clean _ (Nat.le_refl _)⟩
            show (st.heap ++ [some ⟨p, 1⟩])[s.fresh]? = _
            rw [← hr.len, List.getElem?_append_right (Nat.le_refl _)]
            simp
          · obtain ⟨h1, h2, h3⟩ := hr.live e he
            exact ⟨by
              show (st.heap ++ [some ⟨p, 1⟩])[e.2.1]? = _
              rw [List.getElem?_append_left (List.getElem?_eq_some_iff.1 h1).1]; exact h1, h2, h3⟩
        paths := by
          rw [List.pairwise_cons]
          refine ⟨?_, hr.paths⟩
          intro e he hp
          rw [List.find?_eq_none] at hf
          exact hf e he (by simpa using hp.symm)
        ids := by
          rw [List.pairwise_cons]
          refine ⟨?_, hr.ids⟩
          intro e he hp
          have := (List.getElem?_eq_some_iff.1 (hr.live e he).1).1
          rw [hr.len] at this
          have hp : s.fresh = e.2.1 := hp
          omega
        big := hr.big
        idle := hr.idle
        clean := fun i hi => hr.clean i (by have : s.fresh + 1 ≤ i := hi; omega) }
  | some e =>
    rw [hf] at h
    simp only [Option.some.injEq, Prod.mk.injEq] at h
    obtain ⟨rfl, rfl⟩ := h
    rw [hf, Option.map_some] at hfind
    have he := List.mem_of_find?_eq_some hf
    have hep : e.1 = p := by simpa using List.find?_some hf
    obtain ⟨h1, h2, h3⟩ := hr.live e he
    have hi := (List.getElem?_eq_some_iff.1 h1).1
    refine ⟨{ st with heap := st.heap.set e.2.1 (some ⟨e.1, (e.2.2 : Int) + 1⟩) }, ?_, ?_⟩
    · have s1 : step st (.openStore t p) = .ok ([], { setPC st t (.incRead e.2.1) with big := some t }) := by
        simp only [step, hr.idle t, hr.big, hfind, ne_eq, not_true_eq_false, if_false]
      have s2 : step { setPC st t (.incRead e.2.1) with big := some t } (.step t) = .ok ([], { setPC st t (.incWrite e.2.1 e.2.2) with big := some t }) := by
        have hpc : ({ setPC st t (.incRead e.2.1) with big := some t } : State).pc t = .incRead e.2.1 := by simp [setPC]
        have hg : getStore { setPC st t (.incRead e.2.1) with big := some t } e.2.1 = .ok ⟨e.1, (e.2.2 : Int)⟩ := getStore_ok h1
        simp only [step]
        rw [hpc]
        simp only [stepPC]
        rw [hg, Res.ok_bind]
        simp only [setPC]
        congr 3
        funext u
        by_cases hu : u = t
        · simp [hu]
        · simp [hu]
      have s3 : step { setPC st t (.incWrite e.2.1 e.2.2) with big := some t } (.step t) =
          .ok ([.got t e.2.1], { st with heap := st.heap.set e.2.1 (some ⟨e.1, (e.2.2 : Int) + 1⟩) }) := by
        have hpc : ({ setPC st t (.incWrite e.2.1 e.2.2) with big := some t } : State).pc t = .incWrite e.2.1 e.2.2 := by simp [setPC]
        have hg : getStore { setPC st t (.incWrite e.2.1 e.2.2) with big := some t } e.2.1 = .ok ⟨e.1, (e.2.2 : Int)⟩ := getStore_ok h1
        simp only [step]
        rw [hpc]
        simp only [stepPC]
        rw [hg, Res.ok_bind]
        simp only [setPC]
        congr 3
        · exact hr.big.symm
        · funext u
          by_cases hu : u = t
          · simp [hu, hr.idle]
          · simp [hu]
      exact call_of s1 (finish_more (by simp [setPC, Ev.thread]) s2 (finish_more (by simp [setPC, Ev.thread]) s3 (finish_idle (hr.idle t))))
    · exact {
        len := by simp [hr.len]
        table := by
          show st.table = _
          rw [hr.table, List.map_map]
          apply List.map_congr_left
          intro x _
          simp only [Function.comp]
          split <;> rfl
        live := by
          intro x hx
          rcases map_upd_mem (q := fun x => x.1 == p) (g := fun x => (x.1, x.2.1, x.2.2 + 1)) hx with ⟨y, hy, hq, rfl⟩ | ⟨hx, hq⟩
          · have : y = e := pair_unique hr.paths hy he (by rw [hep]; simpa using hq)
            subst this
            refine ⟨?_, by simp, h3⟩
            show (st.heap.set y.2.1 _)[y.2.1]? = _
            rw [List.getElem?_set_self hi]
            simp
          · obtain ⟨k1, k2, k3⟩ := hr.live x hx
            refine ⟨?_, k2, k3⟩
            show (st.heap.set e.2.1 _)[x.2.1]? = _
            rw [List.getElem?_set_ne]
            · exact k1
            · intro hh
              have : e = x := pair_unique (f := fun e => e.2.1) hr.ids he hx hh
              subst this
              rw [hep] at hq
              simp at hq
        paths := by
          rw [List.pairwise_map]
          refine hr.paths.imp ?_
          intro a b hab
          split <;> split <;> exact hab
        ids := by
          rw [List.pairwise_map]
          refine hr.ids.imp ?_
          intro a b hab
          split <;> split <;> exact hab
        big := hr.big
        idle := hr.idle
        clean := hr.clean }

theorem call_close {s : SharedStores} {st : State} (hr : ShRel s st) (t i : Nat) {o : List Obs} {s' : SharedStores}
    (h : shareStep s (.closeStore t i) = some (o, s')) : ∃ st', call st (.closeStore t i) = .ok (o, st') ∧ ShRel s' st' := by
  simp only [shareStep] at h
  cases hf : s.opened.find? (fun e => e.2.1 == i) with
  | none => rw [hf] at h; exact absurd h (by simp)
  | some e =>
    rw [hf] at h
    simp only [Option.some.injEq, Prod.mk.injEq] at h
    obtain ⟨rfl, rfl⟩ := h
    have he := List.mem_of_find?_eq_some hf
    have hei : e.2.1 = i := by simpa using List.find?_some hf
    obtain ⟨h1, h2, h3⟩ := hr.live e he
    rw [hei] at h1 h3
    have hi := (List.getElem?_eq_some_iff.1 h1).1
    have s1 : step st (.closeStore t i) = .ok ([], setPC (setSmall st i (some t)) t (.decRead i)) := by
      simp only [step, hr.idle t, ne_eq, not_true_eq_false, if_false]
      rw [getStore_ok h1, Res.ok_bind, h3]
      simp
    have s2 : step (setPC (setSmall st i (some t)) t (.decRead i)) (.step t) = .ok ([], setPC (setSmall st i (some t)) t (.decWrite i e.2.2)) := by
      have hpc : (setPC (setSmall st i (some t)) t (.decRead i)).pc t = .decRead i := by simp [setPC]
      have hg : getStore (setPC (setSmall st i (some t)) t (.decRead i)) i = .ok ⟨e.1, (e.2.2 : Int)⟩ := getStore_ok h1
      simp only [step]
      rw [hpc]
      simp only [stepPC]
      rw [hg, Res.ok_bind]
      simp only [setPC, setSmall]
      congr 3
      funext u
      by_cases hu : u = t
      · simp [hu]
      · simp [hu]
    have hget2 : getStore (setPC (setSmall st i (some t)) t (.decWrite i e.2.2)) i = .ok ⟨e.1, (e.2.2 : Int)⟩ := getStore_ok h1
    by_cases hc : e.2.2 = 1
    · -- the last one
      let st3 : State := setPC { setSmall st i (some t) with heap := st.heap.set i (some ⟨e.1, 0⟩) } t (.closing i)
      have s3 : step (setPC (setSmall st i (some t)) t (.decWrite i e.2.2)) (.step t) = .ok ([], st3) := by
        have hpc : (setPC (setSmall st i (some t)) t (.decWrite i e.2.2)).pc t = .decWrite i e.2.2 := by simp [setPC]
        simp only [step, hpc, stepPC]
        rw [hget2, Res.ok_bind]
        dsimp only
        rw [if_pos (by omega), hc]
        simp only [st3, setPC, setSmall]
        congr 3
        funext u
        by_cases hu : u = t
        · simp [hu]
        · simp [hu]
      have hfind : st.table.find? (fun x => x.1 == e.1) = some (e.1, i) := by
        rw [hr.table, find_table]
        have : s.opened.find? (fun x => x.1 == e.1) = some e := by
          cases hff : s.opened.find? (fun x => x.1 == e.1) with
          | none =>
            rw [List.find?_eq_none] at hff
            exact absurd (hff e he) (by simp)
          | some y =>
            have hy := List.mem_of_find?_eq_some hff
            have hyp : y.1 = e.1 := by simpa using List.find?_some hff
            rw [pair_unique hr.paths hy he hyp]
        rw [this, Option.map_some, hei]
      have s4 : step st3 (.step t) = .ok ([.gave t i], { setSmall st i (some t) with heap := st.heap.set i none, table := st.table.filter (fun x => !(x.1 == e.1)) }) := by
        have hpc : st3.pc t = .closing i := by simp [st3, setPC]
        have hb : st3.big = none := hr.big
        have hg : getStore st3 i = .ok ⟨e.1, 0⟩ := getStore_ok (List.getElem?_set_self hi)
        simp only [step, hpc, stepPC, hb, ne_eq, not_true_eq_false, if_false]
        rw [hg, Res.ok_bind]
        dsimp only
        have ht : st3.table = st.table := rfl
        rw [ht, hfind]
        dsimp only
        simp only [st3, setPC, setSmall, List.set_set]
        congr 3
        funext u
        by_cases hu : u = t
        · simp [hu, hr.idle]
        · simp [hu]
      refine ⟨{ setSmall st i (some t) with heap := st.heap.set i none, table := st.table.filter (fun x => !(x.1 == e.1)) }, ?_, ?_⟩
      · exact call_of s1 (finish_more (by simp [setPC, Ev.thread]) s2 (finish_more (by simp [setPC, Ev.thread]) s3
          (finish_more (by simp [st3, setPC, Ev.thread]) s4 (finish_idle (hr.idle t)))))
      · rw [if_pos hc]
        exact {
          len := by simp [hr.len]
          table := by
            show st.table.filter _ = _
            rw [hr.table, List.filter_map]
            congr 1
            apply List.filter_congr
            intro x hx
            simp only [Function.comp]
            congr 1
            rw [Bool.eq_iff_iff, beq_iff_eq, beq_iff_eq]
            exact ⟨fun hh => by rw [pair_unique hr.paths hx he hh, hei], fun hh => by rw [pair_unique (f := fun e => e.2.1) hr.ids hx he (by rw [hei]; exact hh)]⟩
          live := by
            intro x hx
            rw [List.mem_filter] at hx
            obtain ⟨k1, k2, k3⟩ := hr.live x hx.1
            have hne : x.2.1 ≠ i := by simpa using hx.2
            refine ⟨?_, k2, ?_⟩
            · show (st.heap.set i none)[x.2.1]? = _
              rw [List.getElem?_set_ne (Ne.symm hne)]
              exact k1
            · simp only [setSmall, if_neg hne]
              exact k3
          paths := hr.paths.sublist List.filter_sublist
          ids := hr.ids.sublist List.filter_sublist
          big := hr.big
          idle := hr.idle
          clean := by
            intro j hj
            have : i < s.fresh := by rw [← hr.len]; exact hi
            have hj : s.fresh ≤ j := hj
            simp only [setSmall, if_neg (show ¬ j = i by omega)]
            exact hr.clean j hj }
    · have s3 : step (setPC (setSmall st i (some t)) t (.decWrite i e.2.2)) (.step t) = .ok ([.gave t i], { st with heap := st.heap.set i (some ⟨e.1, (e.2.2 : Int) - 1⟩) }) := by
        have hpc : (setPC (setSmall st i (some t)) t (.decWrite i e.2.2)).pc t = .decWrite i e.2.2 := by simp [setPC]
        simp only [step, hpc, stepPC]
        rw [hget2, Res.ok_bind]
        dsimp only
        rw [if_neg (by omega)]
        simp only [setPC, setSmall]
        congr 3
        · funext u
          by_cases hu : u = i
          · simp [hu, h3]
          · simp [hu]
        · funext u
          by_cases hu : u = t
          · simp [hu, hr.idle]
          · simp [hu]
      refine ⟨{ st with heap := st.heap.set i (some ⟨e.1, (e.2.2 : Int) - 1⟩) }, ?_, ?_⟩
      · exact call_of s1 (finish_more (by simp [setPC, Ev.thread]) s2 (finish_more (by simp [setPC, Ev.thread]) s3 (finish_idle (hr.idle t))))
      · rw [if_neg hc]
        exact {
          len := by simp [hr.len]
          table := by
            show st.table = _
            rw [hr.table, List.map_map]
            apply List.map_congr_left
            intro x _
            simp only [Function.comp]
            split <;> rfl
          live := by
            intro x hx
            rcases map_upd_mem (q := fun x => x.2.1 == i) (g := fun x => (x.1, x.2.1, x.2.2 - 1)) hx with ⟨y, hy, hq, rfl⟩ | ⟨hx, hq⟩
            · have : y = e := pair_unique (f := fun e => e.2.1) hr.ids hy he (by rw [hei]; simpa using hq)
              subst this
              refine ⟨?_, by show 0 < y.2.2 - 1; omega, by rw [show (y.1, y.2.1, y.2.2 - 1).2.1 = i from hei]; exact h3⟩
              show (st.heap.set i _)[y.2.1]? = _
              rw [hei, List.getElem?_set_self hi]
              simp only [Option.some.injEq, Store.mk.injEq, true_and]
              omega
            · obtain ⟨k1, k2, k3⟩ := hr.live x hx
              refine ⟨?_, k2, k3⟩
              show (st.heap.set i _)[x.2.1]? = _
              rw [List.getElem?_set_ne]
              · exact k1
              · intro hh
                rw [← hh] at hq
                simp at hq
          paths := by
            rw [List.pairwise_map]
            refine hr.paths.imp ?_
            intro a b hab
            split <;> split <;> exact hab
          ids := by
            rw [List.pairwise_map]
            refine hr.ids.imp ?_
            intro a b hab
            split <;> split <;> exact hab
          big := hr.big
          idle := hr.idle
          clean := hr.clean }

theorem calls_spec : ∀ (es : List Ev) {s : SharedStores} {st : State}, ShRel s st → ∀ {o : List Obs} {s' : SharedStores}, shareRun s es = some (o, s') →
    ∃ st', calls st es = .ok (o, st') ∧ ShRel s' st' := by
  intro es
  induction es with
  | nil => intro s st hr o s' h; cases h; exact ⟨st, rfl, hr⟩
  | cons e es ih =>
    intro s st hr o s' h
    simp only [shareRun, Option.bind_eq_some_iff, Option.map_eq_some_iff] at h
    obtain ⟨⟨o1, s1⟩, g1, ⟨o2, s2⟩, g2, g3⟩ := h
    cases g3
    have : ∃ st1, call st e = .ok (o1, st1) ∧ ShRel s1 st1 := by
      cases e with
      | openStore t p => exact call_open hr t p g1
      | closeStore t i => exact call_close hr t i g1
      | step t => exact absurd g1 (by simp [shareStep])
    obtain ⟨st1, k1, hr1⟩ := this
    obtain ⟨st2, k2, hr2⟩ := ih hr1 g2
    exact ⟨st2, by simp only [calls, k1, Res.ok_bind, k2], hr2⟩

end Ferret.FsShare
