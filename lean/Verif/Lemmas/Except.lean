import Verif.Spec.Except

/-! The machine of exceptions does what blocks mean. -/

namespace Ferret.Except
open Ferret.Spec

theorem exec_add (m n : Nat) (s : St) : exec (m + n) s = ((exec m s).1 ++ (exec n (exec m s).2).1, (exec n (exec m s).2).2) := by
  induction m generalizing s with
  | zero => simp [exec]
  | succ m ih =>
    rw [Nat.succ_add]
    simp only [exec, ih, List.append_assoc]

/-- The machine gets from one state to another, leaving these marks. -/
def Steps (s : St) (t : List Nat) (s' : St) : Prop := ∃ n, exec n s = (t, s')

theorem Steps.refl (s : St) : Steps s [] s := ⟨0, rfl⟩

theorem Steps.trans {s s' s'' : St} {t u : List Nat} (h : Steps s t s') (h' : Steps s' u s'') : Steps s (t ++ u) s'' := by
  obtain ⟨m, hm⟩ := h
  obtain ⟨n, hn⟩ := h'
  exact ⟨m + n, by rw [exec_add, hm]; simp only [hn]⟩

theorem Steps.step {s s' s'' : St} {t u : List Nat} (h : step s = (t, s')) (h' : Steps s' u s'') : Steps s (t ++ u) s'' := by
  obtain ⟨n, hn⟩ := h'
  exact ⟨n + 1, by simp only [exec, h, hn]⟩

theorem Steps.quiet {s s' s'' : St} {u : List Nat} (h : Except.step s = ([], s')) (h' : Steps s' u s'') : Steps s u s'' := by
  have := Steps.step h h'
  simpa using this

/-- What is pending in a context. -/
def Ctx.pend (c : Ctx) : Option Nat := if c.handled then none else some c.exc

/-- The contexts stand for the mode and what is pending. -/
def Stands (cs : List Ctx) (inLast : Bool) (p : Option Nat) : Prop :=
  match cs with
  | [] => inLast = false
  | c :: _ => c.inFin = inLast ∧ c.pend = p

/-- The same contexts but for what is pending in the top one. -/
def Same (cs cs' : List Ctx) : Prop :=
  match cs, cs' with
  | [], [] => True
  | c :: r, c' :: r' => c'.kind = c.kind ∧ c'.kont = c.kont ∧ c'.inFin = c.inFin ∧ r' = r
  | _, _ => False

theorem Same.refl (cs : List Ctx) : Same cs cs := by
  cases cs with
  | nil => trivial
  | cons c r => exact ⟨rfl, rfl, rfl, rfl⟩

theorem Same.trans {a b c : List Ctx} (h : Same a b) (h' : Same b c) : Same a c := by
  cases a <;> cases b <;> cases c <;> simp_all [Same]

theorem Same.raiseTo {cs cs' : List Ctx} (h : Same cs cs') (x : Nat) : raiseTo x cs' = raiseTo x cs := by
  cases cs with
  | nil => cases cs' with
    | nil => rfl
    | cons c r => exact h.elim
  | cons c r =>
    cases cs' with
    | nil => exact h.elim
    | cons c' r' =>
      obtain ⟨kind, kont, hd, fi, ex⟩ := c
      obtain ⟨kind', kont', hd', fi', ex'⟩ := c'
      simp only [Same] at h
      obtain ⟨rfl, rfl, rfl, rfl⟩ := h
      rfl

/-- How the machine should go on. -/
def Goes (s : St) (k : List Frame) (cs : List Ctx) (inLast : Bool) (r : List Nat × Ends) : Prop :=
  match r.2 with
  | .normal p => ∃ cs', Steps s r.1 (.run .skip k cs') ∧ Same cs cs' ∧ Stands cs' inLast p
  | .thrown x => Steps s r.1 (raiseTo x cs) ∧ inLast = false

/-- Leaving a block whose part has ended. -/
theorem goes_leave {k : List Frame} {cs : List Ctx} {inLast : Bool} {p : Option Nat} (h : Stands cs inLast p) {c : Ctx} {e : Option Nat}
    (hc : c.pend = e) (hm : mayLeave inLast (.normal e) = true) :
    Goes (.run .skip (.leave :: k) (c :: cs)) k cs inLast ([], leaves inLast p (.normal e)) := by
  unfold Ctx.pend at hc
  cases hh : c.handled with
  | true =>
    rw [hh, if_pos rfl] at hc
    subst hc
    refine ⟨cs, Steps.quiet (s' := .run .skip k cs) ?_ (Steps.refl _), Same.refl _, h⟩
    simp [Except.step, xpop, hh]
  | false =>
    rw [hh, if_neg (by simp)] at hc
    subst hc
    cases inLast with
    | true => simp [mayLeave, Ends.quiet] at hm
    | false =>
      refine ⟨Steps.quiet (s' := raiseTo c.exc cs) ?_ (Steps.refl _), rfl⟩
      simp [Except.step, xpop, hh]

theorem Goes.prefix {s s' : St} {t : List Nat} {k cs inLast r} (h : Steps s t s') (g : Goes s' k cs inLast r) : Goes s k cs inLast (t ++ r.1, r.2) := by
  obtain ⟨u, e⟩ := r
  cases e with
  | normal p =>
    obtain ⟨cs', h1, h2, h3⟩ := g
    exact ⟨cs', h.trans h1, h2, h3⟩
  | thrown x => exact ⟨h.trans g.1, g.2⟩

/-- A FINALLY or CATCHALL part runs, and the block is left. -/
theorem goes_part {f : Cmd} {k : List Frame} {cs : List Ctx} {inLast : Bool} {p q : Option Nat} (h : Stands cs inLast p) {c : Ctx}
    (ih : ∀ (k : List Frame) (cs : List Ctx) (inLast : Bool) (p : Option Nat), Stands cs inLast p → smooth inLast p f = true →
      Goes (.run f k cs) k cs inLast (means inLast p f))
    (hf : c.inFin = true) (hq : c.pend = q) (hs : smooth true q f = true) (hm : mayLeave inLast (means true q f).2 = true) :
    Goes (.run f (.leave :: k) (c :: cs)) k cs inLast ((means true q f).1, leaves inLast p (means true q f).2) := by
  have g := ih (.leave :: k) (c :: cs) true q ⟨hf, hq⟩ hs
  cases he : (means true q f).2 with
  | thrown x =>
    unfold Goes at g
    rw [he] at g
    exact absurd g.2 (by simp)
  | normal e =>
    unfold Goes at g
    rw [he] at g hm
    obtain ⟨cs', g1, g2, g3⟩ := g
    cases cs' with
    | nil => exact g2.elim
    | cons c' r =>
      obtain ⟨_, _, _, rfl⟩ := g2
      have := Goes.prefix g1 (goes_leave (k := k) h g3.2 hm)
      simpa using this

/-- Outside FINALLY and CATCHALL parts nothing becomes pending. -/
theorem means_none : ∀ (c : Cmd) (t : List Nat) (q : Option Nat), means false none c = (t, .normal q) → q = none := by
  have key : ∀ (e : Ends) (q : Option Nat), leaves false none e = .normal q → q = none := by
    intro e q h
    cases e with
    | thrown x => simp [leaves, lets] at h
    | normal p => cases p <;> simp [leaves, lets] at h; exact h.symm
  intro c
  induction c with
  | skip => intro t q h; simp [means] at h; exact h.2.symm
  | act n => intro t q h; simp [means] at h; exact h.2.symm
  | handled => intro t q h; simp [means] at h; exact h.2.symm
  | raise x => intro t q h; simp [means, lets] at h
  | seq a b iha ihb =>
    intro t q h
    simp only [means] at h
    cases ha : means false none a with
    | mk u e =>
      rw [ha] at h
      cases e with
      | thrown x => simp at h
      | normal q' =>
        have := iha _ _ ha
        subst this
        simp only [] at h
        cases hb : means false none b with
        | mk v e' =>
          rw [hb] at h
          simp only [Prod.mk.injEq] at h
          exact ihb v q (by rw [hb, h.2])
  | fin b f ihb ihf =>
    intro t q h
    simp only [means] at h
    split at h <;> exact key _ _ (Prod.mk.inj h).2
  | catchAll b f ihb ihf =>
    intro t q h
    simp only [means] at h
    split at h
    · simp at h; exact h.2.symm
    · exact key _ _ (Prod.mk.inj h).2
  | case xs b f ihb ihf =>
    intro t q h
    simp only [means] at h
    split at h
    · simp at h; exact h.2.symm
    · split at h
      · exact key _ _ (Prod.mk.inj h).2
      · simp [lets] at h
  | full xs b g f ihb ihg ihf =>
    intro t q h
    simp only [means] at h
    split at h
    · cases hf : means false none f with
      | mk v e' =>
        rw [hf] at h
        simp only [Prod.mk.injEq] at h
        exact ihf v q (by rw [hf, h.2])
    · cases hf : means false none f with
      | mk v e' =>
        rw [hf] at h
        cases e' <;> simp [lets] at h
    · cases hf : means false none f with
      | mk v e' =>
        rw [hf] at h
        cases e' <;> simp [lets] at h

theorem means_goes : ∀ (c : Cmd) (k : List Frame) (cs : List Ctx) (inLast : Bool) (p : Option Nat), Stands cs inLast p →
    smooth inLast p c = true → Goes (.run c k cs) k cs inLast (means inLast p c) := by
  intro c
  induction c with
  | skip => intro k cs inLast p h _; exact ⟨cs, Steps.refl _, Same.refl _, h⟩
  | act n => intro k cs inLast p h _; exact ⟨cs, ⟨1, rfl⟩, Same.refl _, h⟩
  | handled =>
    intro k cs inLast p h _
    cases cs with
    | nil => exact ⟨[], ⟨1, rfl⟩, trivial, h⟩
    | cons c r => exact ⟨{ c with handled := true } :: r, ⟨1, rfl⟩, ⟨rfl, rfl, rfl, rfl⟩, h.1, rfl⟩
  | raise x =>
    intro k cs inLast p h _
    cases cs with
    | nil =>
      have h : inLast = false := h
      subst h
      exact ⟨⟨1, rfl⟩, rfl⟩
    | cons c r =>
      obtain ⟨h1, h2⟩ := h
      cases inLast with
      | false =>
        refine ⟨⟨1, ?_⟩, rfl⟩
        simp [exec, Except.step, xraise, h1, means]
      | true =>
        unfold Ctx.pend at h2
        cases hh : c.handled with
        | true =>
          rw [hh, if_pos rfl] at h2
          subst h2
          refine ⟨{ c with exc := x, handled := false } :: r, ⟨1, ?_⟩, ⟨rfl, rfl, rfl, rfl⟩, h1, rfl⟩
          simp [exec, Except.step, xraise, h1, hh, means]
        | false =>
          rw [hh, if_neg (by simp)] at h2
          subst h2
          refine ⟨c :: r, ⟨1, ?_⟩, Same.refl _, h1, ?_⟩
          · simp [exec, Except.step, xraise, h1, hh, means]
          · simp [Ctx.pend, hh]
  | seq a b iha ihb =>
    intro k cs inLast p h hs
    simp only [smooth, Bool.and_eq_true] at hs
    have ga := iha (.seq b :: k) cs inLast p h hs.1
    unfold Goes at ga
    simp only [means]
    cases ha : means inLast p a with
    | mk t e =>
      rw [ha] at ga
      cases e with
      | thrown x => exact ⟨Steps.quiet rfl ga.1, ga.2⟩
      | normal q =>
        obtain ⟨cs', g1, g2, g3⟩ := ga
        have hb : smooth inLast q b = true := by
          have := hs.2
          rw [ha] at this
          exact this
        have gb := ihb k cs' inLast q g3 hb
        have g0 : Steps (.run (.seq a b) k cs) t (.run b k cs') := by
          have : Steps (.run .skip (.seq b :: k) cs') [] (.run b k cs') := ⟨1, rfl⟩
          have := Steps.quiet (s := .run (.seq a b) k cs) rfl (g1.trans this)
          simpa using this
        have := Goes.prefix g0 gb
        simp only []
        cases hmb : means inLast q b with
        | mk u e' =>
          rw [hmb] at this
          cases e' with
          | normal q' =>
            obtain ⟨cs'', k1, k2, k3⟩ := this
            exact ⟨cs'', k1, g2.trans k2, k3⟩
          | thrown x => exact ⟨by rw [← g2.raiseTo]; exact this.1, this.2⟩
  | fin b f ihb ihf =>
    intro k cs inLast p h hs
    simp only [smooth, Bool.and_eq_true] at hs
    have gb := ihb (.enterLast f :: k) (newCtx (.last f) k :: cs) false none ⟨rfl, rfl⟩ hs.1
    have h0 : Except.step (.run (.fin b f) k cs) = ([], .run b (.enterLast f :: k) (newCtx (.last f) k :: cs)) := rfl
    unfold Goes at gb
    simp only [means]
    cases hb : means false none b with
    | mk t e =>
      rw [hb] at gb
      have hs2 := hs.2
      rw [hb] at hs2
      cases e with
      | normal q =>
        simp only [Bool.and_eq_true] at hs2 gb
        obtain ⟨cs', g1, g2, g3⟩ := gb
        cases cs' with
        | nil => exact g2.elim
        | cons c' r =>
          obtain ⟨_, _, _, rfl⟩ := g2
          have hq := means_none b t q hb
          subst hq
          have hk := goes_part (k := k) h (c := { c' with inFin := true }) ihf rfl g3.2 hs2.1 hs2.2
          have h2 : Steps (.run .skip (.enterLast f :: k) (c' :: r)) [] (.run f (.leave :: k) ({ c' with inFin := true } :: r)) := ⟨1, rfl⟩
          have := Goes.prefix (Steps.quiet h0 (g1.trans h2)) hk
          simpa using this
      | thrown x =>
        simp only [Bool.and_eq_true] at hs2 gb
        have := goes_part (k := k) h (c := { newCtx (.last f) k with exc := x, handled := false, inFin := true }) ihf rfl rfl hs2.1 hs2.2
        exact Goes.prefix (Steps.quiet h0 gb.1) this
  | catchAll b f ihb ihf =>
    intro k cs inLast p h hs
    simp only [smooth, Bool.and_eq_true] at hs
    have gb := ihb (.leave :: k) (newCtx (.last f) k :: cs) false none ⟨rfl, rfl⟩ hs.1
    have h0 : Except.step (.run (.catchAll b f) k cs) = ([], .run b (.leave :: k) (newCtx (.last f) k :: cs)) := rfl
    unfold Goes at gb
    simp only [means]
    cases hb : means false none b with
    | mk t e =>
      rw [hb] at gb
      have hs2 := hs.2
      rw [hb] at hs2
      cases e with
      | normal q =>
        obtain ⟨cs', g1, g2, g3⟩ := gb
        have hq := means_none b t q hb
        subst hq
        cases cs' with
        | nil => exact g2.elim
        | cons c' r =>
          obtain ⟨_, _, _, rfl⟩ := g2
          have := Goes.prefix (Steps.quiet h0 g1) (goes_leave (k := k) h g3.2 (by simp [mayLeave, Ends.quiet]))
          simpa [leaves] using this
      | thrown x =>
        simp only [Bool.and_eq_true] at hs2 gb
        have := goes_part (k := k) h (c := { newCtx (.last f) k with exc := x, handled := false, inFin := true }) ihf rfl rfl hs2.1 hs2.2
        exact Goes.prefix (Steps.quiet h0 gb.1) this
  | case xs b f ihb ihf =>
    intro k cs inLast p h hs
    simp only [smooth, Bool.and_eq_true] at hs
    have gb := ihb (.leave :: k) (newCtx (.case xs f) k :: cs) false none ⟨rfl, rfl⟩ hs.1
    have h0 : Except.step (.run (.case xs b f) k cs) = ([], .run b (.leave :: k) (newCtx (.case xs f) k :: cs)) := rfl
    unfold Goes at gb
    simp only [means]
    cases hb : means false none b with
    | mk t e =>
      rw [hb] at gb
      have hs2 := hs.2
      rw [hb] at hs2
      cases e with
      | normal q =>
        obtain ⟨cs', g1, g2, g3⟩ := gb
        have hq := means_none b t q hb
        subst hq
        cases cs' with
        | nil => exact g2.elim
        | cons c' r =>
          obtain ⟨_, _, _, rfl⟩ := g2
          have := Goes.prefix (Steps.quiet h0 g1) (goes_leave (k := k) h g3.2 (by simp [mayLeave, Ends.quiet]))
          simpa [leaves] using this
      | thrown x =>
        simp only [] at hs2 gb ⊢
        by_cases hx : xs.contains x = true
        · rw [if_pos hx] at hs2 ⊢
          simp only [Bool.and_eq_true] at hs2
          obtain ⟨⟨hs3, hs4⟩, hs5⟩ := hs2
          have hj : raiseTo x (newCtx (.case xs f) k :: cs)
              = .run f (.leave :: k) ({ newCtx (.case xs f) k with exc := x, handled := false } :: cs) := by
            simp only [raiseTo, jump, newCtx, if_pos hx]
          rw [hj] at gb
          have gf := ihf (.leave :: k) ({ newCtx (.case xs f) k with exc := x, handled := false } :: cs) false (some x) ⟨rfl, rfl⟩ hs3
          unfold Goes at gf
          cases hf : means false (some x) f with
          | mk u e =>
            rw [hf] at gf hs4 hs5
            have g0 := Steps.quiet h0 gb.1
            cases e with
            | normal q =>
              obtain ⟨cs', g1, g2, g3⟩ := gf
              cases cs' with
              | nil => exact g2.elim
              | cons c' r =>
                obtain ⟨_, _, _, rfl⟩ := g2
                have := Goes.prefix (g0.trans g1) (goes_leave (k := k) h g3.2 hs4)
                simpa using this
            | thrown y =>
              simp only [Bool.not_eq_true'] at hs5
              have hj2 : raiseTo y ({ newCtx (.case xs f) k with exc := x, handled := false } :: cs)
                  = .run .skip (.leave :: k) ({ newCtx (.case xs f) k with exc := y, handled := false } :: cs) := by
                simp only [raiseTo, jump, newCtx, hs5, Bool.false_eq_true, if_false]
              simp only [hj2] at gf
              have hm : mayLeave inLast (.normal (some y)) = true := by
                cases inLast <;> simp_all [mayLeave, Ends.quiet]
              have := Goes.prefix (g0.trans gf.1) (goes_leave (k := k) h
                (c := { newCtx (.case xs f) k with exc := y, handled := false }) (e := some y) rfl hm)
              simpa [leaves] using this
        · rw [if_neg hx] at hs2 ⊢
          have hj : raiseTo x (newCtx (.case xs f) k :: cs)
              = .run .skip (.leave :: k) ({ newCtx (.case xs f) k with exc := x, handled := false } :: cs) := by
            simp only [raiseTo, jump, newCtx, if_neg hx]
          rw [hj] at gb
          have hm : mayLeave inLast (.normal (some x)) = true := by
            cases inLast <;> simp_all [mayLeave]
          have := Goes.prefix (Steps.quiet h0 gb.1) (goes_leave (k := k) h
            (c := { newCtx (.case xs f) k with exc := x, handled := false }) (e := some x) rfl hm)
          simpa [leaves] using this
  | full xs b g f ihb ihg ihf =>
    intro k cs inLast p h hs
    simp only [smooth, Bool.and_eq_true] at hs
    obtain ⟨⟨⟨hsb, _⟩, hsf⟩, hs2⟩ := hs
    have gb := ihb (.endTry f :: k) (newCtx (.full xs g f) k :: cs) false none ⟨rfl, rfl⟩ hsb
    have h0 : Except.step (.run (.full xs b g f) k cs) = ([], .run b (.endTry f :: k) (newCtx (.full xs g f) k :: cs)) := rfl
    have gf := ihf k cs inLast p h hsf
    have hleave : ∀ c' : Ctx, c'.pend = none → Steps (.run .skip (.endTry f :: k) (c' :: cs)) [] (.run f k cs) := by
      intro c' hc
      have hh : c'.handled = true := by
        unfold Ctx.pend at hc
        cases hh : c'.handled <;> simp_all
      exact ⟨1, by simp [exec, Except.step, xpop, hh]⟩
    unfold Goes at gb
    simp only [means]
    cases hb : means false none b with
    | mk t e =>
      rw [hb] at gb hs2
      cases e with
      | normal q =>
        obtain ⟨cs', g1, g2, g3⟩ := gb
        have hq := means_none b t q hb
        subst hq
        cases cs' with
        | nil => exact g2.elim
        | cons c' r =>
          obtain ⟨_, _, _, rfl⟩ := g2
          have := Goes.prefix (Steps.quiet h0 (g1.trans (hleave c' g3.2))) gf
          simpa using this
      | thrown x =>
        simp only [Bool.and_eq_true] at hs2 gb ⊢
        obtain ⟨⟨hx, hs3⟩, hs4⟩ := hs2
        rw [if_pos hx]
        have hj : raiseTo x (newCtx (.full xs g f) k :: cs)
            = .run g (.endTry f :: k) ({ newCtx (.full xs g f) k with exc := x, handled := false } :: cs) := by
          simp only [raiseTo, jump, newCtx, if_pos hx]
        rw [hj] at gb
        have gg := ihg (.endTry f :: k) ({ newCtx (.full xs g f) k with exc := x, handled := false } :: cs) false (some x) ⟨rfl, rfl⟩ hs3
        unfold Goes at gg
        cases hg : means false (some x) g with
        | mk u e =>
          rw [hg] at gg hs4
          have g0 := Steps.quiet h0 gb.1
          cases e with
          | thrown y => simp [Ends.quiet] at hs4
          | normal q =>
            cases q with
            | some y => simp [Ends.quiet] at hs4
            | none =>
              obtain ⟨cs', g1, g2, g3⟩ := gg
              cases cs' with
              | nil => exact g2.elim
              | cons c' r =>
                obtain ⟨_, _, _, rfl⟩ := g2
                have := Goes.prefix (g0.trans (g1.trans (hleave c' g3.2))) gf
                simpa using this

end Ferret.Except
