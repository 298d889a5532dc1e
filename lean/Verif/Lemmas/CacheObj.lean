import Verif.Model.CacheObj

namespace Ferret.CacheObj
open Ferret Ferret.Spec

variable {V : Type}

theorem put_self {α : Type} (g : Nat → α) (k : Nat) (a : α) : put g k a k = a := if_pos rfl
theorem put_ne {α : Type} (g : Nat → α) {k x : Nat} (a : α) (h : x ≠ k) : put g k a x = g x := if_neg h

/-- A cache object with what is in it. -/
structure Ent (V : Type) where
  f : Nat
  r : Nat
  c : Nat
  v : V

/-- The table of a filter, of a reader. -/
def ftab (M : List (Ent V)) (f : Nat) : List (Nat × Nat) := (M.filter fun e => decide (e.f = f)).map fun e => (e.r, e.c)
def rtab (M : List (Ent V)) (r : Nat) : List (Nat × Nat) := (M.filter fun e => decide (e.r = r)).map fun e => (e.f, e.c)

structure Inv (st : St V) (fs rs : List Nat) (M : List (Ent V)) : Prop where
  filt : ∀ f, st.filt f = if f ∈ fs then some (ftab M f) else none
  rdr0 : ∀ r, r ∉ rs → st.rdr r = none
  rdr1 : ∀ r, r ∈ rs → st.rdr r = some (some (rtab M r)) ∨ (st.rdr r = some none ∧ ∀ e ∈ M, e.r ≠ r)
  heap : ∀ c o, st.heap c = some o ↔ (⟨o.f, o.r, c, o.obj⟩ : Ent V) ∈ M
  ids : ∀ e ∈ M, e.c < st.next
  fresh : M.Pairwise fun a b => a.c ≠ b.c
  key : ∀ a ∈ M, ∀ b ∈ M, a.f = b.f → a.r = b.r → a.c = b.c
  alive : ∀ e ∈ M, e.f ∈ fs ∧ e.r ∈ rs

theorem uniq : ∀ {M : List (Ent V)}, M.Pairwise (fun a b => a.c ≠ b.c) → ∀ a ∈ M, ∀ b ∈ M, a.c = b.c → a = b := by
  intro M
  induction M with
  | nil => intro _ a ha; cases ha
  | cons x M ih =>
    intro h a ha b hb hab
    rw [List.pairwise_cons] at h
    rcases List.mem_cons.1 ha with e | ha' <;> rcases List.mem_cons.1 hb with e' | hb'
    · rw [e, e']
    · rw [e] at hab; exact absurd hab (h.1 b hb')
    · rw [e'] at hab; exact absurd hab.symm (h.1 a ha')
    · exact ih h.2 a ha' b hb' hab

/-- Without an object. -/
def without (M : List (Ent V)) (c : Nat) : List (Ent V) := M.filter fun e => decide (e.c ≠ c)

theorem ftab_without {st : St V} {fs rs : List Nat} {M : List (Ent V)} (h : Inv st fs rs M) {e : Ent V} (he : e ∈ M) (f : Nat) :
    ftab (without M e.c) f = if f = e.f then hRem (ftab M f) e.r else ftab M f := by
  unfold ftab without hRem
  by_cases hf : f = e.f
  · rw [if_pos hf, List.filter_filter, List.filter_map, List.filter_filter]
    congr 1
    apply List.filter_congr
    intro a ha
    rw [Bool.eq_iff_iff]
    simp only [Bool.and_eq_true, decide_eq_true_eq, Function.comp_apply]
    constructor
    · rintro ⟨h1, h2⟩
      exact ⟨fun hr => h2 (h.key a ha e he (h1.trans hf) hr), h1⟩
    · rintro ⟨h1, h2⟩
      refine ⟨h2, fun hc => h1 ?_⟩
      rw [uniq h.fresh a ha e he hc]
  · rw [if_neg hf, List.filter_filter]
    congr 1
    apply List.filter_congr
    intro a ha
    rw [Bool.eq_iff_iff]
    simp only [Bool.and_eq_true, decide_eq_true_eq]
    constructor
    · exact fun h1 => h1.1
    · intro h1
      refine ⟨h1, fun hc => hf ?_⟩
      rw [← h1, uniq h.fresh a ha e he hc]

theorem rtab_without {st : St V} {fs rs : List Nat} {M : List (Ent V)} (h : Inv st fs rs M) {e : Ent V} (he : e ∈ M) (r : Nat) :
    rtab (without M e.c) r = if r = e.r then hRem (rtab M r) e.f else rtab M r := by
  unfold rtab without hRem
  by_cases hr : r = e.r
  · rw [if_pos hr, List.filter_filter, List.filter_map, List.filter_filter]
    congr 1
    apply List.filter_congr
    intro a ha
    rw [Bool.eq_iff_iff]
    simp only [Bool.and_eq_true, decide_eq_true_eq, Function.comp_apply]
    constructor
    · rintro ⟨h1, h2⟩
      exact ⟨fun hf => h2 (h.key a ha e he hf (h1.trans hr)), h1⟩
    · rintro ⟨h1, h2⟩
      refine ⟨h2, fun hc => h1 ?_⟩
      rw [uniq h.fresh a ha e he hc]
  · rw [if_neg hr, List.filter_filter]
    congr 1
    apply List.filter_congr
    intro a ha
    rw [Bool.eq_iff_iff]
    simp only [Bool.and_eq_true, decide_eq_true_eq]
    constructor
    · exact fun h1 => h1.1
    · intro h1
      refine ⟨h1, fun hc => hr ?_⟩
      rw [← h1, uniq h.fresh a ha e he hc]

theorem Inv.rdr_of_mem {st : St V} {fs rs : List Nat} {M : List (Ent V)} (h : Inv st fs rs M) {e : Ent V} (he : e ∈ M) : st.rdr e.r = some (some (rtab M e.r)) := by
  rcases h.rdr1 e.r (h.alive e he).2 with h1 | ⟨-, h2⟩
  · exact h1
  · exact absurd rfl (h2 e he)

theorem mem_without {M : List (Ent V)} {c : Nat} {e : Ent V} : e ∈ without M c ↔ e ∈ M ∧ e.c ≠ c := by
  unfold without
  rw [List.mem_filter, decide_eq_true_eq]

theorem coDestroy_inv {st : St V} {fs rs : List Nat} {M : List (Ent V)} (h : Inv st fs rs M) {e : Ent V} (he : e ∈ M) :
    ∃ st', coDestroy st e.c = .ok st' ∧ Inv st' fs rs (without M e.c) ∧ st'.freed = st.freed ++ [e.v] := by
  have hh : st.heap e.c = some ⟨e.f, e.r, e.v⟩ := (h.heap e.c ⟨e.f, e.r, e.v⟩).2 he
  have hf : st.filt e.f = some (ftab M e.f) := by rw [h.filt, if_pos (h.alive e he).1]
  have hr := h.rdr_of_mem he
  refine ⟨_, by unfold coDestroy; rw [hh]; dsimp only; rw [hf, hr], ?_, rfl⟩
  refine ⟨?_, ?_, ?_, ?_, ?_, ?_, ?_, ?_⟩
  · intro f
    show put st.filt e.f (some (hRem (ftab M e.f) e.r)) f = _
    rw [ftab_without h he]
    by_cases hfe : f = e.f
    · subst hfe
      rw [put_self, if_pos rfl, if_pos (h.alive e he).1]
    · rw [put_ne _ _ hfe, if_neg hfe, h.filt]
  · intro r hrr
    show put st.rdr e.r _ r = none
    have : r ≠ e.r := by rintro rfl; exact hrr (h.alive e he).2
    rw [put_ne _ _ this]
    exact h.rdr0 r hrr
  · intro r hrr
    show put st.rdr e.r (some (some (hRem (rtab M e.r) e.f))) r = _ ∨ (put st.rdr e.r (some (some (hRem (rtab M e.r) e.f))) r = _ ∧ _)
    rw [rtab_without h he]
    by_cases hre : r = e.r
    · subst hre
      rw [put_self, if_pos rfl]
      exact Or.inl rfl
    · rw [put_ne _ _ hre, if_neg hre]
      rcases h.rdr1 r hrr with h1 | ⟨h1, h2⟩
      · exact Or.inl h1
      · exact Or.inr ⟨h1, fun a ha => h2 a (mem_without.1 ha).1⟩
  · intro c o
    show put st.heap e.c none c = some o ↔ _
    rw [mem_without]
    by_cases hc : c = e.c
    · subst hc
      rw [put_self]
      constructor
      · intro h1; cases h1
      · rintro ⟨-, h2⟩; exact absurd rfl h2
    · rw [put_ne _ _ hc, h.heap]
      exact ⟨fun h1 => ⟨h1, hc⟩, fun h1 => h1.1⟩
  · exact fun a ha => h.ids a (mem_without.1 ha).1
  · exact h.fresh.filter _
  · exact fun a ha b hb => h.key a (mem_without.1 ha).1 b (mem_without.1 hb).1
  · exact fun a ha => h.alive a (mem_without.1 ha).1

theorem hRem_absent {t : List (Nat × Nat)} {k : Nat} (h : ∀ x ∈ t, x.1 ≠ k) : hRem t k = t := by
  unfold hRem
  exact List.filter_eq_self.2 fun x hx => by simpa using h x hx

theorem hRem_gone (t : List (Nat × Nat)) (k : Nat) : ∀ x ∈ hRem t k, x.1 ≠ k := by
  intro x hx
  simpa using (List.mem_filter.1 hx).2

theorem put_same {α : Type} {g : Nat → α} {k : Nat} {a : α} (h : g k = a) : put g k a = g := by
  funext x
  unfold put
  split
  · next hx => rw [hx, h]
  · rfl

theorem drop_first {p : Ent V → Bool} {M E : List (Ent V)} {e : Ent V} (hu : M.Pairwise fun a b => a.c ≠ b.c) (h : M.filter p = e :: E) :
    (without M e.c).filter p = E := by
  unfold without
  rw [List.filter_filter]
  have : (fun a => p a && decide (a.c ≠ e.c)) = fun a => decide (a.c ≠ e.c) && p a := by funext a; exact Bool.and_comm _ _
  rw [this, ← List.filter_filter, h, List.filter_cons, if_neg (by simp)]
  have hp : (e :: E).Pairwise fun a b => a.c ≠ b.c := by rw [← h]; exact hu.filter _
  rw [List.pairwise_cons] at hp
  exact List.filter_eq_self.2 fun a ha => by simpa using (hp.1 a ha).symm

theorem clearF_inv {fs rs : List Nat} (f : Nat) (hf : f ∈ fs) : ∀ (E : List (Ent V)) {st : St V} {M : List (Ent V)}, Inv st fs rs M → M.filter (fun e => decide (e.f = f)) = E →
    ∃ st', clearF f (E.map fun e => (e.r, e.c)) st = .ok st' ∧ Inv st' fs rs (M.filter fun e => decide (e.f ≠ f)) ∧ st'.freed = st.freed ++ E.map (·.v) := by
  intro E
  induction E with
  | nil =>
    intro st M h hE
    refine ⟨st, rfl, ?_, by simp⟩
    rw [List.filter_eq_self.2]
    · exact h
    · intro a ha
      have := List.filter_eq_nil_iff.1 hE a ha
      simpa using this
  | cons e E ih =>
    intro st M h hE
    have he : e ∈ M ∧ e.f = f := by
      have : e ∈ M.filter fun e => decide (e.f = f) := by rw [hE]; exact List.mem_cons_self
      simpa using List.mem_filter.1 this
    obtain ⟨st1, g1, g2, g3⟩ := coDestroy_inv h he.1
    obtain ⟨st2, k1, k2, k3⟩ := ih g2 (drop_first h.fresh hE)
    have hfilt : st.filt f = some (ftab M f) := by rw [h.filt, if_pos hf]
    have hfilt1 : st1.filt f = some (ftab (without M e.c) f) := by rw [g2.filt, if_pos hf]
    have hgone : hRem (ftab (without M e.c) f) e.r = ftab (without M e.c) f := by
      rw [ftab_without h he.1, if_pos he.2.symm]
      exact hRem_absent (hRem_gone _ _)
    refine ⟨st2, ?_, ?_, ?_⟩
    · rw [List.map_cons, clearF, hfilt]
      dsimp only
      rw [if_pos (by unfold ftab; rw [hE]; exact List.mem_cons_self), g1, Res.ok_bind, hfilt1]
      dsimp only
      rw [hgone, put_same hfilt1]
      exact k1
    · have : (without M e.c).filter (fun a => decide (a.f ≠ f)) = M.filter fun a => decide (a.f ≠ f) := by
        unfold without
        rw [List.filter_filter]
        apply List.filter_congr
        intro a ha
        rw [Bool.eq_iff_iff]
        simp only [Bool.and_eq_true, decide_eq_true_eq]
        constructor
        · exact fun h1 => h1.1
        · intro h1
          refine ⟨h1, fun hc => h1 ?_⟩
          rw [uniq h.fresh a ha e he.1 hc, he.2]
      rw [← this]
      exact k2
    · rw [k3, g3, List.map_cons, List.append_assoc]
      rfl

theorem clearR_inv {fs rs : List Nat} (r : Nat) : ∀ (E : List (Ent V)) {st : St V} {M : List (Ent V)}, Inv st fs rs M → M.filter (fun e => decide (e.r = r)) = E →
    st.rdr r = some (some (rtab M r)) →
    ∃ st', clearR r (E.map fun e => (e.f, e.c)) st = .ok st' ∧ Inv st' fs rs (M.filter fun e => decide (e.r ≠ r)) ∧ st'.freed = st.freed ++ E.map (·.v) := by
  intro E
  induction E with
  | nil =>
    intro st M h hE _
    refine ⟨st, rfl, ?_, by simp⟩
    rw [List.filter_eq_self.2]
    · exact h
    · intro a ha
      have := List.filter_eq_nil_iff.1 hE a ha
      simpa using this
  | cons e E ih =>
    intro st M h hE hrd
    have he : e ∈ M ∧ e.r = r := by
      have : e ∈ M.filter fun e => decide (e.r = r) := by rw [hE]; exact List.mem_cons_self
      simpa using List.mem_filter.1 this
    obtain ⟨st1, g1, g2, g3⟩ := coDestroy_inv h he.1
    have hrdr1 : st1.rdr r = some (some (rtab (without M e.c) r)) := by
      unfold coDestroy at g1
      rw [(h.heap e.c ⟨e.f, e.r, e.v⟩).2 he.1] at g1
      dsimp only at g1
      rw [h.filt, if_pos (h.alive e he.1).1, h.rdr_of_mem he.1] at g1
      cases g1
      show put st.rdr e.r _ r = _
      rw [he.2, put_self, rtab_without h he.1, if_pos he.2.symm]
    obtain ⟨st2, k1, k2, k3⟩ := ih g2 (drop_first h.fresh hE) hrdr1
    have hgone : hRem (rtab (without M e.c) r) e.f = rtab (without M e.c) r := by
      rw [rtab_without h he.1, if_pos he.2.symm]
      exact hRem_absent (hRem_gone _ _)
    refine ⟨st2, ?_, ?_, ?_⟩
    · rw [List.map_cons, clearR, hrd]
      dsimp only
      rw [if_pos (by unfold rtab; rw [hE]; exact List.mem_cons_self), g1, Res.ok_bind, hrdr1]
      dsimp only
      rw [hgone, put_same hrdr1]
      exact k1
    · have : (without M e.c).filter (fun a => decide (a.r ≠ r)) = M.filter fun a => decide (a.r ≠ r) := by
        unfold without
        rw [List.filter_filter]
        apply List.filter_congr
        intro a ha
        rw [Bool.eq_iff_iff]
        simp only [Bool.and_eq_true, decide_eq_true_eq]
        constructor
        · exact fun h1 => h1.1
        · intro h1
          refine ⟨h1, fun hc => h1 ?_⟩
          rw [uniq h.fresh a ha e he.1 hc, he.2]
      rw [← this]
      exact k2
    · rw [k3, g3, List.map_cons, List.append_assoc]
      rfl

theorem hGet_ftab {M : List (Ent V)} {f r : Nat} : hGet (ftab M f) r = (M.find? fun e => decide (e.f = f ∧ e.r = r)).map (·.c) := by
  unfold hGet ftab
  rw [List.find?_map, List.find?_filter, Option.map_map]
  refine congrArg (fun p => Option.map (fun e : Ent V => e.c) (M.find? p)) ?_
  funext e
  simp

theorem find_none {M : List (Ent V)} {f r : Nat} (h : (M.find? fun e => decide (e.f = f ∧ e.r = r)) = none) : ∀ e ∈ M, ¬ (e.f = f ∧ e.r = r) := by
  intro e he hn
  have := List.find?_eq_none.1 h e he
  simp [hn] at this

theorem hGet_absent {t : List (Nat × Nat)} {k : Nat} (h : ∀ x ∈ t, x.1 ≠ k) : hGet t k = none := by
  unfold hGet
  rw [List.find?_eq_none.2]
  · rfl
  · intro x hx
    simpa using h x hx

theorem ftab_absent {M : List (Ent V)} {f r : Nat} (h : ∀ e ∈ M, ¬ (e.f = f ∧ e.r = r)) : ∀ x ∈ ftab M f, x.1 ≠ r := by
  intro x hx
  unfold ftab at hx
  obtain ⟨e, h1, rfl⟩ := List.mem_map.1 hx
  rw [List.mem_filter, decide_eq_true_eq] at h1
  exact fun hr => h e h1.1 ⟨h1.2, hr⟩

theorem rtab_absent {M : List (Ent V)} {f r : Nat} (h : ∀ e ∈ M, ¬ (e.f = f ∧ e.r = r)) : ∀ x ∈ rtab M r, x.1 ≠ f := by
  intro x hx
  unfold rtab at hx
  obtain ⟨e, h1, rfl⟩ := List.mem_map.1 hx
  rw [List.mem_filter, decide_eq_true_eq] at h1
  exact fun hr => h e h1.1 ⟨hr, h1.2⟩

theorem addCache_inv {st : St V} {fs rs : List Nat} {M : List (Ent V)} (h : Inv st fs rs M) {r : Nat} (hr : r ∈ rs) :
    ∃ st', addCache st r = .ok st' ∧ Inv st' fs rs M ∧ st'.rdr r = some (some (rtab M r)) ∧ st'.freed = st.freed := by
  unfold addCache
  rcases h.rdr1 r hr with h1 | ⟨h1, h2⟩
  · rw [h1]
    exact ⟨st, rfl, h, h1, rfl⟩
  · rw [h1]
    have e : rtab M r = [] := by
      unfold rtab
      rw [List.filter_eq_nil_iff.2 (fun a ha => by simpa using h2 a ha)]
      rfl
    refine ⟨_, rfl, ⟨h.filt, ?_, ?_, h.heap, h.ids, h.fresh, h.key, h.alive⟩, by rw [e]; exact put_self _ _ _, rfl⟩
    · intro r' hr'
      have : r' ≠ r := by rintro rfl; exact hr' hr
      exact (put_ne _ _ this).trans (h.rdr0 r' hr')
    · intro r' hr'
      by_cases hrr : r' = r
      · subst hrr
        left
        rw [e]
        exact put_self _ _ _
      · show put st.rdr r _ r' = _ ∨ (put st.rdr r _ r' = _ ∧ _)
        rw [put_ne _ _ hrr]
        exact h.rdr1 r' hr'

theorem coCreate_inv {st : St V} {fs rs : List Nat} {M : List (Ent V)} (h : Inv st fs rs M) {f r : Nat} (hf : f ∈ fs) (hr : r ∈ rs) (v : V)
    (hno : ∀ e ∈ M, ¬ (e.f = f ∧ e.r = r)) (hrd : st.rdr r = some (some (rtab M r))) :
    ∃ st', coCreate st f r v = .ok st' ∧ Inv st' fs rs (M ++ [⟨f, r, st.next, v⟩]) ∧ st'.freed = st.freed := by
  have hfilt : st.filt f = some (ftab M f) := by rw [h.filt, if_pos hf]
  have e1 : hSetF { st with next := st.next + 1 } f r st.next = .ok { st with next := st.next + 1, filt := put st.filt f (some (ftab M f ++ [(r, st.next)])) } := by
    unfold hSetF
    dsimp only
    rw [hfilt]
    dsimp only
    rw [hGet_absent (ftab_absent hno), Res.ok_bind]
    dsimp only
    rw [hfilt]
    dsimp only
    rw [hRem_absent (ftab_absent hno)]
  refine ⟨{ st with next := st.next + 1, filt := put st.filt f (some (ftab M f ++ [(r, st.next)])), rdr := put st.rdr r (some (some (rtab M r ++ [(f, st.next)]))), heap := put st.heap st.next (some ⟨f, r, v⟩) }, ?_, ?_, rfl⟩
  · unfold coCreate
    rw [e1, Res.ok_bind]
    unfold hSetR
    dsimp only
    rw [hrd]
    dsimp only
    rw [hGet_absent (rtab_absent hno), Res.ok_bind]
    dsimp only
    rw [hrd]
    dsimp only
    rw [hRem_absent (rtab_absent hno), Res.ok_bind]
  · have ef : ∀ x, ftab (M ++ [⟨f, r, st.next, v⟩]) x = if x = f then ftab M x ++ [(r, st.next)] else ftab M x := by
      intro x
      unfold ftab
      rw [List.filter_append, List.map_append]
      by_cases hx : x = f
      · rw [if_pos hx, List.filter_cons, if_pos (by simpa using hx.symm)]; rfl
      · rw [if_neg hx, List.filter_cons, if_neg (by simpa using fun h => hx h.symm)]; simp
    have er : ∀ x, rtab (M ++ [⟨f, r, st.next, v⟩]) x = if x = r then rtab M x ++ [(f, st.next)] else rtab M x := by
      intro x
      unfold rtab
      rw [List.filter_append, List.map_append]
      by_cases hx : x = r
      · rw [if_pos hx, List.filter_cons, if_pos (by simpa using hx.symm)]; rfl
      · rw [if_neg hx, List.filter_cons, if_neg (by simpa using fun h => hx h.symm)]; simp
    refine ⟨?_, ?_, ?_, ?_, ?_, ?_, ?_, ?_⟩
    · intro x
      show put st.filt f _ x = _
      rw [ef]
      by_cases hx : x = f
      · subst hx; rw [put_self, if_pos hf, if_pos rfl]
      · rw [put_ne _ _ hx, if_neg hx, h.filt]
    · intro x hx
      have : x ≠ r := by rintro rfl; exact hx hr
      exact (put_ne _ _ this).trans (h.rdr0 x hx)
    · intro x hx
      show put st.rdr r _ x = _ ∨ (put st.rdr r _ x = _ ∧ _)
      rw [er]
      by_cases hxr : x = r
      · subst hxr; rw [put_self, if_pos rfl]; exact Or.inl rfl
      · rw [put_ne _ _ hxr, if_neg hxr]
        rcases h.rdr1 x hx with h1 | ⟨h1, h2⟩
        · exact Or.inl h1
        · refine Or.inr ⟨h1, ?_⟩
          intro a ha
          rcases List.mem_append.1 ha with ha | ha
          · exact h2 a ha
          · rw [List.mem_singleton.1 ha]; exact fun h => hxr h.symm
    · intro c o
      show put st.heap st.next _ c = some o ↔ _
      rw [List.mem_append, List.mem_singleton]
      by_cases hc : c = st.next
      · subst hc
        rw [put_self]
        constructor
        · intro h1; cases h1; exact Or.inr rfl
        · rintro (h1 | h1)
          · exact absurd (h.ids _ h1) (Nat.lt_irrefl _)
          · obtain ⟨o1, o2, o3⟩ := o
            simp only [Ent.mk.injEq] at h1
            obtain ⟨rfl, rfl, -, rfl⟩ := h1
            rfl
      · rw [put_ne _ _ hc, h.heap]
        constructor
        · exact Or.inl
        · rintro (h1 | h1)
          · exact h1
          · simp only [Ent.mk.injEq] at h1
            exact absurd h1.2.2.1 hc
    · intro a ha
      show a.c < st.next + 1
      rcases List.mem_append.1 ha with ha | ha
      · have := h.ids a ha; omega
      · rw [List.mem_singleton.1 ha]; exact Nat.lt_succ_self _
    · rw [List.pairwise_append]
      refine ⟨h.fresh, List.pairwise_singleton _ _, ?_⟩
      intro a ha b hb
      rw [List.mem_singleton.1 hb]
      have := h.ids a ha
      show a.c ≠ st.next
      omega
    · intro a ha b hb hab1 hab2
      rcases List.mem_append.1 ha with ha | ha <;> rcases List.mem_append.1 hb with hb | hb
      · exact h.key a ha b hb hab1 hab2
      · rw [List.mem_singleton.1 hb] at hab1 hab2
        exact absurd ⟨hab1, hab2⟩ (hno a ha)
      · rw [List.mem_singleton.1 ha] at hab1 hab2
        exact absurd ⟨hab1.symm, hab2.symm⟩ (hno b hb)
      · rw [List.mem_singleton.1 ha, List.mem_singleton.1 hb]
    · intro a ha
      rcases List.mem_append.1 ha with ha | ha
      · exact h.alive a ha
      · rw [List.mem_singleton.1 ha]; exact ⟨hf, hr⟩

/-- What is kept, with the objects. -/
def kept (M : List (Ent V)) : List (Nat × Nat × V) := M.map fun e => (e.f, e.r, e.v)

theorem step_inv {st : St V} {m : Memo V} {M : List (Ent V)} (h : Inv st m.fs m.rs M) (hk : m.kept = kept M) (op : CacheOp V) {m' : Memo V} {out : Option V} {gone : List V}
    (hs : memoStep m op = some (m', out, gone)) :
    ∃ st' M', step st op = .ok (st', out) ∧ Inv st' m'.fs m'.rs M' ∧ m'.kept = kept M' ∧ st'.freed = st.freed ++ gone := by
  cases op with
  | newF f =>
    unfold memoStep at hs
    dsimp only at hs
    by_cases hf : f ∈ m.fs
    · rw [if_pos hf] at hs; cases hs
    · rw [if_neg hf] at hs
      cases hs
      refine ⟨_, M, rfl, ⟨?_, h.rdr0, h.rdr1, h.heap, h.ids, h.fresh, h.key, fun e he => ⟨List.mem_cons_of_mem _ (h.alive e he).1, (h.alive e he).2⟩⟩, hk, by simp⟩
      intro x
      show put st.filt f (some []) x = if x ∈ f :: m.fs then _ else none
      by_cases hx : x = f
      · subst hx
        rw [put_self, if_pos List.mem_cons_self]
        unfold ftab
        rw [List.filter_eq_nil_iff.2]
        · rfl
        · intro e he
          simp only [decide_eq_true_eq]
          intro hef
          exact hf (hef ▸ (h.alive e he).1)
      · rw [put_ne _ _ hx, h.filt]
        simp [hx]
  | newR r =>
    unfold memoStep at hs
    dsimp only at hs
    by_cases hr : r ∈ m.rs
    · rw [if_pos hr] at hs; cases hs
    · rw [if_neg hr] at hs
      cases hs
      refine ⟨_, M, rfl, ⟨h.filt, ?_, ?_, h.heap, h.ids, h.fresh, h.key, fun e he => ⟨(h.alive e he).1, List.mem_cons_of_mem _ (h.alive e he).2⟩⟩, hk, by simp⟩
      · intro x hx
        have h1 : x ≠ r := by rintro rfl; exact hx List.mem_cons_self
        exact (put_ne _ _ h1).trans (h.rdr0 x fun hn => hx (List.mem_cons_of_mem _ hn))
      · intro x hx
        show put st.rdr r _ x = _ ∨ (put st.rdr r _ x = _ ∧ _)
        by_cases hxr : x = r
        · subst hxr
          refine Or.inr ⟨put_self _ _ _, fun e he her => hr (her ▸ (h.alive e he).2)⟩
        · rw [put_ne _ _ hxr]
          rcases List.mem_cons.1 hx with hx | hx
          · exact absurd hx hxr
          · exact h.rdr1 x hx
  | get f r v =>
    unfold memoStep at hs
    dsimp only at hs
    by_cases ha : f ∈ m.fs ∧ r ∈ m.rs
    · rw [if_pos ha] at hs
      have hfilt : st.filt f = some (ftab M f) := by rw [h.filt, if_pos ha.1]
      have efind : m.kept.find? (fun x => decide (x.1 = f ∧ x.2.1 = r)) = (M.find? fun e => decide (e.f = f ∧ e.r = r)).map fun e => (e.f, e.r, e.v) := by
        rw [hk]
        unfold kept
        rw [List.find?_map]
        rfl
      rw [efind] at hs
      cases hfd : M.find? fun e => decide (e.f = f ∧ e.r = r) with
      | some e =>
        rw [hfd] at hs
        cases hs
        have he : e ∈ M := List.mem_of_find?_eq_some hfd
        refine ⟨st, M, ?_, h, hk, by simp⟩
        unfold step getBv
        dsimp only
        rw [hfilt]
        dsimp only
        rw [hGet_ftab, hfd]
        dsimp only [Option.map_some]
        rw [(h.heap e.c ⟨e.f, e.r, e.v⟩).2 he]
        rfl
      | none =>
        rw [hfd] at hs
        cases hs
        obtain ⟨st1, g1, g2, g3, g4⟩ := addCache_inv h ha.2
        obtain ⟨st2, k1, k2, k3⟩ := coCreate_inv g2 ha.1 ha.2 v (find_none hfd) g3
        refine ⟨st2, _, ?_, k2, ?_, by rw [k3, g4]; simp⟩
        · unfold step getBv
          dsimp only
          rw [hfilt]
          dsimp only
          rw [hGet_ftab, hfd]
          dsimp only [Option.map_none]
          rw [g1, Res.ok_bind, k1]
          rfl
        · show m.kept ++ [(f, r, v)] = _
          rw [hk]
          unfold kept
          rw [List.map_append]
          rfl
    · rw [if_neg ha] at hs; cases hs
  | delF f =>
    unfold memoStep at hs
    dsimp only at hs
    by_cases hf : f ∈ m.fs
    · rw [if_pos hf] at hs
      cases hs
      have hfilt : st.filt f = some (ftab M f) := by rw [h.filt, if_pos hf]
      obtain ⟨st1, g1, g2, g3⟩ := clearF_inv f hf _ h rfl
      refine ⟨{ st1 with filt := put st1.filt f none }, M.filter (fun e => decide (e.f ≠ f)), ?_, ⟨?_, g2.rdr0, g2.rdr1, g2.heap, g2.ids, g2.fresh, g2.key, ?_⟩, ?_, ?_⟩
      · unfold step delFilter
        dsimp only
        rw [hfilt]
        dsimp only
        unfold ftab
        rw [g1]
        rfl
      · intro x
        show put st1.filt f none x = if x ∈ m.fs.filter (fun y => decide (y ≠ f)) then _ else none
        by_cases hx : x = f
        · subst hx
          rw [put_self, if_neg (by simp)]
        · rw [put_ne _ _ hx, g2.filt]
          simp [hx]
      · intro e he
        refine ⟨?_, (g2.alive e he).2⟩
        rw [List.mem_filter]
        exact ⟨(g2.alive e he).1, (List.mem_filter.1 he).2⟩
      · show m.kept.filter _ = _
        rw [hk]
        unfold kept
        rw [List.filter_map]
        rfl
      · rw [hk]
        unfold kept
        rw [List.filter_map, List.map_map]
        exact g3
    · rw [if_neg hf] at hs; cases hs
  | delR r =>
    unfold memoStep at hs
    dsimp only at hs
    by_cases hr : r ∈ m.rs
    · rw [if_pos hr] at hs
      cases hs
      have fin : ∀ st1 : St V, Inv st1 m.fs m.rs (M.filter fun e => decide (e.r ≠ r)) →
          Inv { st1 with rdr := put st1.rdr r none } m.fs (m.rs.filter fun y => decide (y ≠ r)) (M.filter fun e => decide (e.r ≠ r)) := by
        intro st1 g2
        refine ⟨g2.filt, ?_, ?_, g2.heap, g2.ids, g2.fresh, g2.key, ?_⟩
        · intro x hx
          show put st1.rdr r none x = none
          by_cases hxr : x = r
          · subst hxr; exact put_self _ _ _
          · rw [put_ne _ _ hxr]
            exact g2.rdr0 x fun hn => hx (by simp [hn, hxr])
        · intro x hx
          have hx' : x ∈ m.rs ∧ x ≠ r := by simpa using hx
          show put st1.rdr r none x = _ ∨ (put st1.rdr r none x = _ ∧ _)
          rw [put_ne _ _ hx'.2]
          exact g2.rdr1 x hx'.1
        · intro e he
          refine ⟨(g2.alive e he).1, ?_⟩
          rw [List.mem_filter]
          exact ⟨(g2.alive e he).2, (List.mem_filter.1 he).2⟩
      have ek : m.kept.filter (fun x => decide (x.2.1 ≠ r)) = kept (M.filter fun e => decide (e.r ≠ r)) := by
        rw [hk]
        unfold kept
        rw [List.filter_map]
        rfl
      rcases h.rdr1 r hr with h1 | ⟨h1, h2⟩
      · obtain ⟨st1, g1, g2, g3⟩ := clearR_inv r _ h rfl h1
        refine ⟨_, _, ?_, fin st1 g2, ek, ?_⟩
        · unfold step delReader
          dsimp only
          rw [h1]
          dsimp only
          unfold rtab
          rw [g1]
          rfl
        · rw [hk]
          unfold kept
          rw [List.filter_map, List.map_map]
          exact g3
      · have e0 : M.filter (fun e => decide (e.r ≠ r)) = M := List.filter_eq_self.2 fun e he => by simpa using h2 e he
        refine ⟨{ st with rdr := put st.rdr r none }, _, ?_, fin st (by rw [e0]; exact h), ek, ?_⟩
        · unfold step delReader
          dsimp only
          rw [h1]
          rfl
        · rw [hk]
          unfold kept
          rw [List.filter_map, List.filter_eq_nil_iff.2]
          · simp
          · intro e he
            simpa using h2 e he
    · rw [if_neg hr] at hs; cases hs

theorem run_inv : ∀ (ops : List (CacheOp V)) {st : St V} {m : Memo V} {M : List (Ent V)}, Inv st m.fs m.rs M → m.kept = kept M → ∀ {m' : Memo V} {outs : List (Option V)} {gone : List V},
    memoRun m ops = some (m', outs, gone) → ∃ st' M', run st ops = .ok (st', outs) ∧ Inv st' m'.fs m'.rs M' ∧ m'.kept = kept M' ∧ st'.freed = st.freed ++ gone := by
  intro ops
  induction ops with
  | nil =>
    intro st m M h hk m' outs gone hs
    unfold memoRun at hs
    cases hs
    exact ⟨st, M, rfl, h, hk, by simp⟩
  | cons op ops ih =>
    intro st m M h hk m' outs gone hs
    unfold memoRun at hs
    obtain ⟨⟨m1, o1, g1⟩, a1, a2⟩ := Option.bind_eq_some_iff.1 hs
    obtain ⟨⟨m2, o2, g2⟩, a3, a4⟩ := Option.map_eq_some_iff.1 a2
    cases a4
    obtain ⟨st1, M1, b1, b2, b3, b4⟩ := step_inv h hk op a1
    obtain ⟨st2, M2, c1, c2, c3, c4⟩ := ih b2 b3 a3
    refine ⟨st2, M2, ?_, c2, c3, ?_⟩
    · rw [run, b1, Res.ok_bind]
      dsimp only
      rw [c1]
      rfl
    · rw [c4, b4, List.append_assoc]

theorem inv_empty : Inv ({} : St V) [] [] [] := by
  refine ⟨fun f => by simp, fun r _ => rfl, ?_, ?_, ?_, List.Pairwise.nil, ?_, ?_⟩
  · intro r hr; cases hr
  · intro c o
    constructor
    · intro h; cases h
    · intro h; cases h
  · intro e he; cases he
  · intro a ha; cases ha
  · intro e he; cases he

end Ferret.CacheObj
