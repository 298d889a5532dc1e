import Verif.Model.WriterLock

namespace Ferret.WLock
open Ferret.Spec
open Ferret.Lock (Kind)

/-- The version a modifying client works on. -/
def base : Client → Option Nat
  | .writer v => some v
  | .reader r => if r.lock then some r.ver else none
  | _ => none

structure Inv (v0 : Nat) (tr : List WObs) (s : State) : Prop where
  file : ∀ c b, base (s.cl c) = some b → s.file = true ∧ b = s.ver
  uniq : ∀ c d b b', base (s.cl c) = some b → base (s.cl d) = some b' → c = d
  mod : ∀ c, modifying c tr = true → ∃ b, base (s.cl c) = some b
  chg : ∀ c r, s.cl c = .reader r → r.changes = true → r.lock = true
  old : ∀ c r, s.cl c = .reader r → r.ver ≤ s.ver
  ver : s.ver = versionAfter v0 tr
  one : OneModifier tr
  upd : NoLostUpdate v0 tr

theorem mod_snoc (c : Nat) (tr : List WObs) (o : WObs) :
    modifying c (tr ++ [o]) = match o with
      | .opened d => if d = c then true else modifying c tr
      | .changed d => if d = c then true else modifying c tr
      | .done d => if d = c then false else modifying c tr
      | _ => modifying c tr := by
  simp only [modifying, List.foldl_append, List.foldl_cons, List.foldl_nil]
  cases o <;> rfl

theorem ver_snoc (v : Nat) (tr : List WObs) (o : WObs) :
    versionAfter v (tr ++ [o]) = match o with
      | .commit _ _ n => n
      | _ => versionAfter v tr := by
  simp only [versionAfter, List.foldl_append, List.foldl_cons, List.foldl_nil]
  cases o <;> rfl

theorem one_snoc {tr o} (h : OneModifier tr) (h1 : ∀ c d, modifying c (tr ++ [o]) = true → modifying d (tr ++ [o]) = true → c = d) :
    OneModifier (tr ++ [o]) := by
  intro pre hp
  rcases List.prefix_concat_iff.1 hp with rfl | hp
  · exact h1
  · exact h pre hp

theorem upd_snoc {v tr o} (h : NoLostUpdate v tr) (h1 : ∀ c b n, o = .commit c b n → b = versionAfter v tr ∧ b < n) :
    NoLostUpdate v (tr ++ [o]) := by
  intro pre c b n hp
  rcases List.prefix_concat_iff.1 hp with e | hp
  · have := List.append_inj' e rfl
    obtain ⟨rfl, e2⟩ := this
    exact h1 c b n (by cases e2; rfl)
  · exact h pre c b n hp

theorem put_cl (s : State) (c d : Nat) (x : Client) : (put s c x).cl d = if d = c then x else s.cl d := rfl

/-- One observation later. -/
theorem snoc {v0 tr s s' o} (h : Inv v0 tr s) (hf : ∀ c b, base (s'.cl c) = some b → s'.file = true ∧ b = s'.ver)
    (hu : ∀ c d b b', base (s'.cl c) = some b → base (s'.cl d) = some b' → c = d)
    (hm : ∀ c, modifying c (tr ++ [o]) = true → ∃ b, base (s'.cl c) = some b)
    (hc : ∀ c r, s'.cl c = .reader r → r.changes = true → r.lock = true) (ho : ∀ c r, s'.cl c = .reader r → r.ver ≤ s'.ver)
    (hv : s'.ver = versionAfter v0 (tr ++ [o])) (hcm : ∀ c b n, o = .commit c b n → b = s.ver ∧ b < n) : Inv v0 (tr ++ [o]) s' := by
  refine ⟨hf, hu, hm, hc, ho, hv, one_snoc h.one (fun c d h1 h2 => ?_), upd_snoc h.upd (by rw [← h.ver]; exact hcm)⟩
  obtain ⟨b, h1⟩ := hm c h1
  obtain ⟨b', h2⟩ := hm d h2
  exact hu c d b b' h1 h2

theorem step_inv {k v0 tr s e r} (h : Inv v0 tr s) (hs : step k s e = some r) (hq : Undisturbed r.1) : Inv v0 (tr ++ r.1) r.2 := by
  cases e with
  | openWriter c =>
    simp only [step] at hs
    split at hs
    · rename_i hun
      split at hs
      · cases hs; exact absurd (hq (.locked c) List.mem_cons_self) (by simp [disturbing])
      · rename_i hf
        cases hs
        have hnone : ∀ d b, base (s.cl d) ≠ some b := fun d b hd => hf (h.file d b hd).1
        have hb : ∀ d b, base ((put { s with file := true } c (.writer s.ver)).cl d) = some b → d = c ∧ b = s.ver := by
          intro d b hd
          rw [put_cl] at hd
          split at hd
          · rename_i e; cases hd; exact ⟨e, rfl⟩
          · exact absurd hd (hnone d b)
        refine snoc h (fun d b hd => ⟨rfl, (hb d b hd).2⟩) (fun d e b b' h1 h2 => (hb d b h1).1.trans (hb e b' h2).1.symm) ?_ ?_ ?_ ?_ (fun _ _ _ e => by cases e)
        · intro d hd
          rw [mod_snoc] at hd
          rw [put_cl]
          by_cases hdc : d = c
          · rw [if_pos hdc]; exact ⟨_, rfl⟩
          · simp only [show ¬ c = d from fun e => hdc e.symm, if_false] at hd
            obtain ⟨b, hb'⟩ := h.mod d hd
            exact absurd hb' (hnone d b)
        · intro d r hd; rw [put_cl] at hd; split at hd
          · cases hd
          · exact h.chg d r hd
        · intro d r hd; rw [put_cl] at hd; split at hd
          · cases hd
          · exact h.old d r hd
        · rw [ver_snoc]; exact h.ver
    · cases hs
  | commitWriter c =>
    simp only [step] at hs
    split at hs
    · rename_i v hw
      cases hs
      have hbc : base (s.cl c) = some v := by rw [hw]; rfl
      obtain ⟨hfile, hv⟩ := h.file c v hbc
      have hb : ∀ d b, base ((put { s with ver := v + 1 } c (.writer (v + 1))).cl d) = some b → d = c ∧ b = v + 1 := by
        intro d b hd
        rw [put_cl] at hd
        split at hd
        · rename_i e; cases hd; exact ⟨e, rfl⟩
        · rename_i hne; exact absurd (h.uniq d c b v hd hbc) hne
      refine snoc h (fun d b hd => ⟨hfile, (hb d b hd).2⟩) (fun d e b b' h1 h2 => (hb d b h1).1.trans (hb e b' h2).1.symm) ?_ ?_ ?_ ?_ ?_
      · intro d hd
        rw [mod_snoc] at hd
        obtain ⟨b, hb'⟩ := h.mod d hd
        have := h.uniq d c b v hb' hbc
        subst this
        rw [put_cl, if_pos rfl]; exact ⟨_, rfl⟩
      · intro d r hd; rw [put_cl] at hd; split at hd
        · cases hd
        · exact h.chg d r hd
      · intro d r hd; rw [put_cl] at hd; split at hd
        · cases hd
        · have := h.old d r hd; show r.ver ≤ v + 1; omega
      · rw [ver_snoc]; rfl
      · intro c' b n e; cases e; exact ⟨hv, by omega⟩
    · cases hs
  | closeWriter c =>
    simp only [step] at hs
    split at hs
    · rename_i v hw
      cases hs
      have hbc : base (s.cl c) = some v := by rw [hw]; rfl
      have hnone : ∀ d b, base ((put { s with file := false } c .closed).cl d) ≠ some b := by
        intro d b hd
        rw [put_cl] at hd
        split at hd
        · cases hd
        · rename_i hne; exact absurd (h.uniq d c b v hd hbc) hne
      refine snoc h (fun d b hd => absurd hd (hnone d b)) (fun d e b b' h1 _ => absurd h1 (hnone d b)) ?_ ?_ ?_ ?_ (fun _ _ _ e => by cases e)
      · intro d hd
        rw [mod_snoc] at hd
        simp only at hd
        split at hd
        · cases hd
        · rename_i hne
          obtain ⟨b, hb'⟩ := h.mod d hd
          exact absurd (h.uniq d c b v hb' hbc).symm hne
      · intro d r hd; rw [put_cl] at hd; split at hd
        · cases hd
        · exact h.chg d r hd
      · intro d r hd; rw [put_cl] at hd; split at hd
        · cases hd
        · exact h.old d r hd
      · rw [ver_snoc]; exact h.ver
    · cases hs
  | openReader c =>
    simp only [step] at hs
    split at hs
    · rename_i hun
      cases hs
      have hb : ∀ d b, base ((put s c (.reader ⟨s.ver, false, false, false⟩)).cl d) = some b → base (s.cl d) = some b := by
        intro d b hd
        rw [put_cl] at hd
        split at hd
        · cases hd
        · exact hd
      refine snoc h (fun d b hd => h.file d b (hb d b hd)) (fun d e b b' h1 h2 => h.uniq d e b b' (hb d b h1) (hb e b' h2)) ?_ ?_ ?_ ?_ (fun _ _ _ e => by cases e)
      · intro d hd
        rw [mod_snoc] at hd
        obtain ⟨b, hb'⟩ := h.mod d hd
        refine ⟨b, ?_⟩
        rw [put_cl]; split
        · rename_i e; subst e; rw [hun] at hb'; cases hb'
        · exact hb'
      · intro d r hd; rw [put_cl] at hd; split at hd
        · cases hd; intro hh; cases hh
        · exact h.chg d r hd
      · intro d r hd; rw [put_cl] at hd; split at hd
        · cases hd; exact Nat.le_refl _
        · exact h.old d r hd
      · rw [ver_snoc]; exact h.ver
    · cases hs
  | change c =>
    simp only [step] at hs
    split at hs
    · rename_i r0 hr0
      simp only [Option.some.injEq] at hs
      subst hs
      -- nothing but the reader's flags changes
      have quiet : ∀ x : Rd, x.ver = r0.ver → x.lock = r0.lock → x.changes = r0.changes →
          Inv v0 (tr ++ [.outOfDate c]) (put s c (.reader x)) := by
        intro x hx1 hx2 hx3
        have hb : ∀ d, base ((put s c (.reader x)).cl d) = base (s.cl d) := by
          intro d
          rw [put_cl]; split
          · rename_i e; subst e; rw [hr0]; simp only [base, hx1, hx2]
          · rfl
        refine snoc h (fun d b hd => h.file d b (by rw [← hb d]; exact hd)) (fun d e b b' h1 h2 => h.uniq d e b b' (by rw [← hb d]; exact h1) (by rw [← hb e]; exact h2)) ?_ ?_ ?_ ?_ (fun _ _ _ e => by cases e)
        · intro d hd; rw [mod_snoc] at hd; rw [hb]; exact h.mod d hd
        · intro d r hd; rw [put_cl] at hd; split at hd
          · cases hd; rw [hx2, hx3]; exact h.chg c r0 hr0
          · exact h.chg d r hd
        · intro d r hd; rw [put_cl] at hd; split at hd
          · cases hd; rw [hx1]; exact h.old c r0 hr0
          · exact h.old d r hd
        · rw [ver_snoc]; exact h.ver
      have same : put s c (.reader r0) = s := by
        simp only [put]
        congr 1
        funext d
        split
        · rename_i e; rw [e, hr0]
        · rfl
      simp only [change] at hq ⊢
      split
      · have := quiet r0 rfl rfl rfl
        rw [same] at this; exact this
      · split
        · rename_i hl
          have hbc : base (s.cl c) = some r0.ver := by rw [hr0]; simp [base, hl]
          obtain ⟨hfile, hv⟩ := h.file c _ hbc
          have hb : ∀ d, base ((put s c (.reader { r0 with changes := true })).cl d) = base (s.cl d) := by
            intro d
            rw [put_cl]; split
            · rename_i e; subst e; rw [hr0]; rfl
            · rfl
          refine snoc h (fun d b hd => h.file d b (by rw [← hb d]; exact hd)) (fun d e b b' h1 h2 => h.uniq d e b b' (by rw [← hb d]; exact h1) (by rw [← hb e]; exact h2)) ?_ ?_ ?_ ?_ (fun _ _ _ e => by cases e)
          · intro d hd; rw [mod_snoc] at hd; rw [hb]
            simp only at hd
            split at hd
            · rename_i e; subst e; exact ⟨_, hbc⟩
            · exact h.mod d hd
          · intro d r hd; rw [put_cl] at hd; split at hd
            · cases hd; exact fun _ => hl
            · exact h.chg d r hd
          · intro d r hd; rw [put_cl] at hd; split at hd
            · cases hd; exact h.old c r0 hr0
            · exact h.old d r hd
          · rw [ver_snoc]; exact h.ver
        · rename_i hl
          split
          · rename_i hst hf
            simp only [hst, hl, hf, if_true, if_false, Bool.false_eq_true] at hq
            exact absurd (hq (.locked c) List.mem_cons_self) (by simp [disturbing])
          · rename_i hf
            split
            · exact quiet _ rfl rfl rfl
            · rename_i hver
              have hle := h.old c r0 hr0
              have hveq : r0.ver = s.ver := by omega
              have hnone : ∀ d b, base (s.cl d) ≠ some b := fun d b hd => hf (h.file d b hd).1
              have hb : ∀ d b, base ((put { s with file := true } c (.reader { r0 with lock := true, changes := true })).cl d) = some b → d = c ∧ b = s.ver := by
                intro d b hd
                rw [put_cl] at hd
                split at hd
                · rename_i e; simp only [base, if_true] at hd; cases hd; exact ⟨e, hveq⟩
                · exact absurd hd (hnone d b)
              refine snoc h (fun d b hd => ⟨rfl, (hb d b hd).2⟩) (fun d e b b' h1 h2 => (hb d b h1).1.trans (hb e b' h2).1.symm) ?_ ?_ ?_ ?_ (fun _ _ _ e => by cases e)
              · intro d hd
                rw [mod_snoc] at hd
                rw [put_cl]
                by_cases hdc : d = c
                · rw [if_pos hdc]; exact ⟨_, rfl⟩
                · simp only [show ¬ c = d from fun e => hdc e.symm, if_false] at hd
                  obtain ⟨b, hb'⟩ := h.mod d hd
                  exact absurd hb' (hnone d b)
              · intro d r hd; rw [put_cl] at hd; split at hd
                · cases hd; exact fun _ => rfl
                · exact h.chg d r hd
              · intro d r hd; rw [put_cl] at hd; split at hd
                · cases hd; exact hle
                · exact h.old d r hd
              · rw [ver_snoc]; exact h.ver
    · cases hs
  | commitReader c =>
    simp only [step] at hs
    split at hs
    · rename_i r0 hr0
      split at hs
      · rename_i hch
        cases hs
        have hl := h.chg c r0 hr0 hch
        have hbc : base (s.cl c) = some r0.ver := by rw [hr0]; simp [base, hl]
        obtain ⟨hfile, hv⟩ := h.file c _ hbc
        -- the commit, then the release of the lock
        have h1 : Inv v0 (tr ++ [.commit c r0.ver (r0.ver + 1)]) (put { s with ver := r0.ver + 1 } c (.reader ⟨r0.ver + 1, r0.stale, true, r0.changes⟩)) := by
          have hb : ∀ d b, base ((put { s with ver := r0.ver + 1 } c (.reader ⟨r0.ver + 1, r0.stale, true, r0.changes⟩)).cl d) = some b → d = c ∧ b = r0.ver + 1 := by
            intro d b hd
            rw [put_cl] at hd
            split at hd
            · rename_i e; simp only [base, if_true] at hd; cases hd; exact ⟨e, rfl⟩
            · rename_i hne; exact absurd (h.uniq d c b _ hd hbc) hne
          refine snoc h (fun d b hd => ⟨hfile, (hb d b hd).2⟩) (fun d e b b' h1 h2 => (hb d b h1).1.trans (hb e b' h2).1.symm) ?_ ?_ ?_ ?_ ?_
          · intro d hd
            rw [mod_snoc] at hd
            obtain ⟨b, hb'⟩ := h.mod d hd
            have := h.uniq d c b _ hb' hbc
            subst this
            rw [put_cl, if_pos rfl]; exact ⟨_, rfl⟩
          · intro d r hd; rw [put_cl] at hd; split at hd
            · cases hd; exact fun _ => rfl
            · exact h.chg d r hd
          · intro d r hd; rw [put_cl] at hd; split at hd
            · cases hd; exact Nat.le_refl _
            · have := h.old d r hd; show r.ver ≤ r0.ver + 1; omega
          · rw [ver_snoc]; rfl
          · intro c' b n e; cases e; exact ⟨hv, by omega⟩
        simp only [hl, if_true]
        have hbc1 : base ((put { s with ver := r0.ver + 1 } c (.reader ⟨r0.ver + 1, r0.stale, true, r0.changes⟩)).cl c) = some (r0.ver + 1) := by
          rw [put_cl, if_pos rfl]; rfl
        have hnone : ∀ d b, base ((put { s with ver := r0.ver + 1, file := false } c (.reader ⟨r0.ver + 1, r0.stale, false, false⟩)).cl d) ≠ some b := by
          intro d b hd
          rw [put_cl] at hd
          split at hd
          · cases hd
          · rename_i hne; exact absurd (h.uniq d c b _ hd hbc) hne
        rw [show [WObs.commit c r0.ver (r0.ver + 1), .done c] = [.commit c r0.ver (r0.ver + 1)] ++ [.done c] from rfl, ← List.append_assoc]
        refine snoc h1 (fun d b hd => absurd hd (hnone d b)) (fun d e b b' h1 _ => absurd h1 (hnone d b)) ?_ ?_ ?_ ?_ (fun _ _ _ e => by cases e)
        · intro d hd
          rw [mod_snoc] at hd
          simp only at hd
          split at hd
          · cases hd
          · rename_i hne
            obtain ⟨b, hb'⟩ := h1.mod d hd
            exact absurd (h1.uniq d c b _ hb' hbc1).symm hne
        · intro d r hd; rw [put_cl] at hd; split at hd
          · cases hd; intro hh; cases hh
          · exact h.chg d r hd
        · intro d r hd; rw [put_cl] at hd; split at hd
          · cases hd; exact Nat.le_refl _
          · have := h.old d r hd; show r.ver ≤ r0.ver + 1; omega
        · rw [ver_snoc]; exact h1.ver
      · cases hs; simpa using h
    · cases hs
  | isLocked c =>
    simp only [step] at hs
    cases k <;> cases hs <;> exact absurd (hq (.told c s.file) List.mem_cons_self) (by simp [disturbing])

theorem run_inv {k v0} (es : List Call) : ∀ {tr s r}, Inv v0 tr s → run k s es = some r → Undisturbed r.1 → Inv v0 (tr ++ r.1) r.2 := by
  induction es with
  | nil => intro tr s r h hr _; cases hr; simpa using h
  | cons e es ih =>
    intro tr s r h hr hq
    simp only [run, Option.bind_eq_some_iff, Option.map_eq_some_iff] at hr
    obtain ⟨r1, h1, r2, h2, rfl⟩ := hr
    have q1 : Undisturbed r1.1 := fun o ho => hq o (List.mem_append.2 (.inl ho))
    have q2 : Undisturbed r2.1 := fun o ho => hq o (List.mem_append.2 (.inr ho))
    have := ih (step_inv h h1 q1) h2 q2
    simpa only [List.append_assoc] using this

theorem inv_init (v : Nat) : Inv v [] (init v) := by
  refine ⟨fun c b h => ?_, fun c d b b' h => ?_, fun c h => ?_, fun c r h => ?_, fun c r h => ?_, rfl, ?_, ?_⟩
  all_goals try (cases h; done)
  · intro pre hp c d h
    rw [List.prefix_nil] at hp; subst hp; cases h
  · intro pre c b n hp
    rw [List.prefix_nil] at hp
    simp at hp

end Ferret.WLock
