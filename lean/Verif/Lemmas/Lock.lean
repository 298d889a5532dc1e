import Verif.Model.Lock

namespace Ferret.Lock
open Ferret.Spec

/-- Only a client that holds the lock releases or closes it. On an in-memory store nobody else acts
between the two calls that make up `obtain`. -/
def okStep (k : Kind) (tr : List LObs) (s : State) (e : Ev) : Prop :=
  (match e with
   | .release c => holding c tr = true
   | .close c => k = .fs → holding c tr = true
   | _ => True) ∧
  (k = .ram → ∀ c b, s.pc c = .checked b → e.client = c)

def okRun (k : Kind) (tr : List LObs) (s : State) : List Ev → Prop
  | [] => True
  | e :: es => okStep k tr s e ∧ ∀ r, step k s e = some r → okRun k (tr ++ r.1) r.2 es

/-- The clients that own the lock file. -/
def owns (tr : List LObs) (s : State) (c : Nat) : Prop := holding c tr = true ∨ s.pc c = .probing

structure Inv (k : Kind) (tr : List LObs) (s : State) : Prop where
  file : ∀ c, owns tr s c → s.file = true
  uniq : ∀ c d, owns tr s c → owns tr s d → c = d
  past : Exclusive tr
  notBoth : ∀ c, holding c tr = true → s.pc c ≠ .probing
  chk : ∀ c b, s.pc c = .checked b → k = .ram ∧ b = !s.file

theorem holding_snoc (c : Nat) (tr : List LObs) (o : LObs) :
    holding c (tr ++ [o]) = match o with
      | .got d => if d = c then true else holding c tr
      | .gave d => if d = c then false else holding c tr
      | _ => holding c tr := by
  simp only [holding, List.foldl_append, List.foldl_cons, List.foldl_nil]
  cases o <;> rfl

theorem exclusive_snoc {tr : List LObs} {o : LObs} (h : Exclusive tr)
    (h1 : ∀ c d, holding c (tr ++ [o]) = true → holding d (tr ++ [o]) = true → c = d) : Exclusive (tr ++ [o]) := by
  intro pre hp
  rcases List.prefix_concat_iff.1 hp with rfl | hp
  · exact h1
  · exact h pre hp

/-- A step that emits one observation. -/
theorem inv_snoc {k tr s s'} {o : LObs} (h : Inv k tr s) (hf : ∀ c, owns (tr ++ [o]) s' c → s'.file = true)
    (hu : ∀ c d, owns (tr ++ [o]) s' c → owns (tr ++ [o]) s' d → c = d) (hb : ∀ c, holding c (tr ++ [o]) = true → s'.pc c ≠ .probing)
    (hk : ∀ c b, s'.pc c = .checked b → k = .ram ∧ b = !s'.file) : Inv k (tr ++ [o]) s' :=
  ⟨hf, hu, exclusive_snoc h.past (fun c d h1 h2 => hu c d (.inl h1) (.inl h2)), hb, hk⟩

theorem setPC_eq (s : State) (c d : Nat) (p : PC) : (setPC s c p).pc d = if d = c then p else s.pc d := rfl

theorem tryOpen_inv {tr s c n} (h : Inv .fs tr s) (hc : s.pc c ≠ .probing) : Inv .fs (tr ++ (tryOpen s c n).1) (tryOpen s c n).2 := by
  have hno : ∀ d b, s.pc d ≠ .checked b := fun d b hd => by have := (h.chk d b hd).1; cases this
  have hch : ∀ (s' : State) d b p, (∀ b, p ≠ PC.checked b) → s'.pc d = (if d = c then p else s.pc d) → s'.pc d = .checked b → False := by
    intro s' d b p hp h1 h2
    rw [h1] at h2
    split at h2
    · exact hp b h2
    · exact hno d b h2
  unfold tryOpen
  split
  · rename_i hf
    have hnone : ∀ d, ¬ owns tr s d := fun d hd => by rw [h.file d hd] at hf; cases hf
    have hown : ∀ d, owns (tr ++ [.got c]) (setPC { s with file := true } c .idle) d → d = c := by
      intro d hd
      refine Classical.byContradiction fun hdc => ?_
      apply hnone d
      rcases hd with hd | hd
      · rw [holding_snoc] at hd; simp only at hd; rw [if_neg (fun e => hdc e.symm)] at hd; exact .inl hd
      · rw [setPC_eq, if_neg hdc] at hd; exact .inr hd
    refine inv_snoc h (fun d _ => rfl) (fun d e h1 h2 => (hown d h1).trans (hown e h2).symm) (fun d hd => by have := hown d (.inl hd); subst this; rw [setPC_eq, if_pos rfl]; simp) ?_
    intro d b hd
    exact (hch _ d b .idle (by simp) (setPC_eq _ _ _ _) hd).elim
  · split
    · have hown : ∀ d, owns (tr ++ [.refused c]) (setPC s c .idle) d → owns tr s d := by
        intro d hd
        rcases hd with hd | hd
        · rw [holding_snoc] at hd; exact .inl hd
        · rw [setPC_eq] at hd; split at hd
          · cases hd
          · exact .inr hd
      refine inv_snoc h (fun d hd => h.file d (hown d hd)) (fun d e h1 h2 => h.uniq d e (hown d h1) (hown e h2)) (fun d hd hq => ?_) ?_
      · rw [holding_snoc] at hd; rw [setPC_eq] at hq; split at hq
        · cases hq
        · exact h.notBoth d hd hq
      intro d b hd
      exact (hch _ d b .idle (by simp) (setPC_eq _ _ _ _) hd).elim
    · rename_i m
      have hown : ∀ d, owns tr (setPC s c (.trying m)) d → owns tr s d := by
        intro d hd
        rcases hd with hd | hd
        · exact .inl hd
        · rw [setPC_eq] at hd; split at hd
          · cases hd
          · exact .inr hd
      rw [List.append_nil]
      refine ⟨fun d hd => h.file d (hown d hd), fun d e h1 h2 => h.uniq d e (hown d h1) (hown e h2), h.past, fun d hd hq => ?_, ?_⟩
      · rw [setPC_eq] at hq; split at hq
        · cases hq
        · exact h.notBoth d hd hq
      intro d b hd
      exact (hch _ d b (.trying m) (by simp) (setPC_eq _ _ _ _) hd).elim

/-- A holder lets go of the file. -/
theorem gave_inv {k tr s c} (h : Inv k tr s) (hc : holding c tr = true) (hi : s.pc c = .idle) (hnc : ∀ d b, s.pc d ≠ .checked b) :
    Inv k (tr ++ [.gave c]) { s with file := false } := by
  have hown : ∀ d, ¬ owns (tr ++ [.gave c]) { s with file := false } d := by
    intro d hd
    rcases hd with hd | hd
    · rw [holding_snoc] at hd
      simp only at hd
      split at hd
      · cases hd
      · rename_i hne; exact hne (h.uniq c d (.inl hc) (.inl hd))
    · have := h.uniq c d (.inl hc) (.inr hd)
      subst this
      rw [show s.pc c = .probing from hd] at hi; cases hi
  exact inv_snoc h (fun d hd => absurd hd (hown d)) (fun d _ h1 _ => absurd h1 (hown d)) (fun d hd _ => absurd (.inl hd) (hown d)) (fun d b hd => absurd hd (hnc d b))

theorem step_inv {k tr s e r} (h : Inv k tr s) (hok : okStep k tr s e) (hs : step k s e = some r) : Inv k (tr ++ r.1) r.2 := by
  have hnc : ∀ d b, s.pc d = .checked b → e.client = d := by
    intro d b hd
    exact hok.2 (h.chk d b hd).1 d b hd
  cases e with
  | obtain c =>
    simp only [step] at hs
    split at hs
    · cases hs
    · rename_i hidle
      have hidle : s.pc c = .idle := by simpa using hidle
      cases k with
      | fs => cases hs; exact tryOpen_inv h (by rw [hidle]; simp)
      | ram =>
        cases hs
        have hown : ∀ d, owns tr (setPC s c (.checked (!s.file))) d → owns tr s d := by
          intro d hd
          rcases hd with hd | hd
          · exact .inl hd
          · rw [setPC_eq] at hd; split at hd
            · cases hd
            · exact .inr hd
        simp only [List.append_nil]
        refine ⟨fun d hd => h.file d (hown d hd), fun d e h1 h2 => h.uniq d e (hown d h1) (hown e h2), h.past, fun d hd hq => ?_, ?_⟩
        · rw [setPC_eq] at hq; split at hq
          · cases hq
          · exact h.notBoth d hd hq
        intro d b hd
        rw [setPC_eq] at hd
        split at hd
        · cases hd; exact ⟨rfl, rfl⟩
        · exact h.chk d b hd
  | step c =>
    simp only [step] at hs
    cases hp : s.pc c with
    | idle => rw [hp] at hs; cases hs
    | trying n =>
      rw [hp] at hs; cases hs
      cases k with
      | fs => exact tryOpen_inv h (by rw [hp]; simp)
      | ram =>
        -- not reachable with an in-memory store, but harmless: the try is the same
        have hnk : ∀ d b, s.pc d ≠ .checked b := by
          intro d b hd
          have := hnc d b hd
          simp only [Ev.client] at this
          subst this
          rw [hp] at hd; cases hd
        have h' : Inv .fs tr s := ⟨h.file, h.uniq, h.past, h.notBoth, fun d b hd => absurd hd (hnk d b)⟩
        have h2 := tryOpen_inv (n := n) h' (c := c) (by rw [hp]; simp)
        exact ⟨h2.file, h2.uniq, h2.past, h2.notBoth, fun d b hd => by have := (h2.chk d b hd).1; cases this⟩
    | probing =>
      rw [hp] at hs; cases hs
      have hown : ∀ d, ¬ owns (tr ++ [.told c false]) (setPC { s with file := false } c .idle) d := by
        intro d hd
        rcases hd with hd | hd
        · rw [holding_snoc] at hd
          have := h.uniq d c (.inl hd) (.inr hp)
          subst this
          exact (by
            -- a holder that probes: the file existed when it looked
            exact h.notBoth d hd hp)
        · rw [setPC_eq] at hd; split at hd
          · cases hd
          · rename_i hne; exact hne (h.uniq d c (.inr hd) (.inr hp))
      refine inv_snoc h (fun d hd => absurd hd (hown d)) (fun d _ h1 _ => absurd h1 (hown d)) (fun d hd _ => absurd (.inl hd) (hown d)) ?_
      intro d b hd
      rw [setPC_eq] at hd; split at hd
      · cases hd
      · have := hnc d b hd
        rename_i hne; exact absurd this.symm hne
    | checked ret =>
      rw [hp] at hs; cases hs
      obtain ⟨rfl, hret⟩ := h.chk c ret hp
      have hpc : ∀ d, (setPC { s with file := true } c .idle).pc d = .probing → s.pc d = .probing := by
        intro d hd; rw [setPC_eq] at hd; split at hd
        · cases hd
        · exact hd
      have hk : ∀ d b, (setPC { s with file := true } c .idle).pc d = .checked b → Kind.ram = .ram ∧ b = !(setPC { s with file := true } c .idle).file := by
        intro d b hd; rw [setPC_eq] at hd; split at hd
        · cases hd
        · rename_i hne; exact absurd (hnc d b hd).symm hne
      cases hf : s.file with
      | false =>
        rw [hf] at hret; simp at hret; subst hret
        have hnone : ∀ d, ¬ owns tr s d := fun d hd => by rw [h.file d hd] at hf; cases hf
        have hown : ∀ d, owns (tr ++ [.got c]) (setPC { s with file := true } c .idle) d → d = c := by
          intro d hd
          refine Classical.byContradiction fun hdc => ?_
          apply hnone d
          rcases hd with hd | hd
          · rw [holding_snoc] at hd; simp only at hd; rw [if_neg (fun e => hdc e.symm)] at hd; exact .inl hd
          · exact .inr (hpc d hd)
        exact inv_snoc h (fun d _ => rfl) (fun d e h1 h2 => (hown d h1).trans (hown e h2).symm) (fun d hd => by have := hown d (.inl hd); subst this; rw [setPC_eq, if_pos rfl]; simp) hk
      | true =>
        rw [hf] at hret; simp at hret; subst hret
        have hown : ∀ d, owns (tr ++ [.refused c]) (setPC { s with file := true } c .idle) d → owns tr s d := by
          intro d hd
          rcases hd with hd | hd
          · rw [holding_snoc] at hd; exact .inl hd
          · exact .inr (hpc d hd)
        exact inv_snoc h (fun d _ => rfl) (fun d e h1 h2 => h.uniq d e (hown d h1) (hown e h2))
          (fun d hd hq => by rw [holding_snoc] at hd; exact h.notBoth d hd (hpc d hq)) hk
  | isLocked c =>
    simp only [step] at hs
    split at hs
    · cases hs
    · rename_i hidle
      have hidle : s.pc c = .idle := by simpa using hidle
      have told : ∀ b, Inv k (tr ++ [.told c b]) s := by
        intro b
        have hown : ∀ d, owns (tr ++ [.told c b]) s d → owns tr s d := by
          intro d hd
          rcases hd with hd | hd
          · rw [holding_snoc] at hd; exact .inl hd
          · exact .inr hd
        exact inv_snoc h (fun d hd => h.file d (hown d hd)) (fun d e h1 h2 => h.uniq d e (hown d h1) (hown e h2))
          (fun d hd hq => by rw [holding_snoc] at hd; exact h.notBoth d hd hq) h.chk
      cases k with
      | fs =>
        simp only at hs
        split at hs
        · rename_i hf
          cases hs
          have hnone : ∀ d, ¬ owns tr s d := fun d hd => by rw [h.file d hd] at hf; cases hf
          have hown : ∀ d, owns tr (setPC { s with file := true } c .probing) d → d = c := by
            intro d hd
            refine Classical.byContradiction fun hdc => ?_
            apply hnone d
            rcases hd with hd | hd
            · exact .inl hd
            · rw [setPC_eq, if_neg hdc] at hd; exact .inr hd
          simp only [List.append_nil]
          refine ⟨fun d _ => rfl, fun d e h1 h2 => (hown d h1).trans (hown e h2).symm, h.past, fun d hd => absurd (.inl hd) (hnone d), ?_⟩
          intro d b hd
          rw [setPC_eq] at hd; split at hd
          · cases hd
          · have := (h.chk d b hd).1; cases this
        · cases hs; exact told true
      | ram => cases hs; exact told _
  | release c =>
    simp only [step] at hs
    split at hs
    · cases hs
    · rename_i hidle
      have hidle : s.pc c = .idle := by simpa using hidle
      cases hs
      refine gave_inv h hok.1 hidle (fun d b hd => ?_)
      have := hnc d b hd
      simp only [Ev.client] at this
      subst this
      rw [hidle] at hd; cases hd
  | close c =>
    simp only [step] at hs
    split at hs
    · cases hs
    · rename_i hidle
      have hidle : s.pc c = .idle := by simpa using hidle
      have hnk : ∀ d b, s.pc d ≠ .checked b := by
        intro d b hd
        have := hnc d b hd
        simp only [Ev.client] at this
        subst this
        rw [hidle] at hd; cases hd
      cases k with
      | fs => cases hs; exact gave_inv h (hok.1 rfl) hidle hnk
      | ram =>
        cases hs
        have hown : ∀ d, owns (tr ++ [.gave c]) s d → owns tr s d := by
          intro d hd
          rcases hd with hd | hd
          · rw [holding_snoc] at hd; simp only at hd; split at hd
            · cases hd
            · exact .inl hd
          · exact .inr hd
        refine inv_snoc h (fun d hd => h.file d (hown d hd)) (fun d e h1 h2 => h.uniq d e (hown d h1) (hown e h2)) (fun d hd hq => ?_) h.chk
        rcases hown d (.inl hd) with h1 | h1
        · exact h.notBoth d h1 hq
        · rw [holding_snoc] at hd; simp only at hd; split at hd
          · cases hd
          · exact h.notBoth d hd hq

theorem run_inv {k} (es : List Ev) : ∀ {tr s r}, Inv k tr s → okRun k tr s es → run k s es = some r → Inv k (tr ++ r.1) r.2 := by
  induction es with
  | nil => intro tr s r h _ hr; cases hr; simpa using h
  | cons e es ih =>
    intro tr s r h hok hr
    simp only [run, Option.bind_eq_some_iff, Option.map_eq_some_iff] at hr
    obtain ⟨r1, h1, r2, h2, rfl⟩ := hr
    have := ih (step_inv h hok.1 h1) (hok.2 r1 h1) h2
    simpa only [List.append_assoc] using this

theorem inv_init {k} : Inv k [] init := by
  refine ⟨fun c h => ?_, fun c d h => ?_, ?_, fun c h => ?_, fun c b h => ?_⟩
  · rcases h with h | h <;> cases h
  · rcases h with h | h <;> cases h
  · intro pre hp c d h
    rw [List.prefix_nil] at hp; subst hp; cases h
  · cases h
  · cases h

end Ferret.Lock
