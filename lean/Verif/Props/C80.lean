import Verif.Lemmas.Except

/-!
C80: a program with blocks and exceptions runs the parts its blocks say, once each, and ends as they say.
-/

namespace Ferret.Props
open Ferret.Except Ferret.Spec

/-- How the machine ends when a program does. -/
def endSt : Ends → St
  | .normal _ => .halt
  | .thrown x => .exit x

/-- Programs that run smoothly leave the marks the documentation says and end as it says: normally, or with the exception
nobody caught. -/
theorem c80_structured_partial (c : Cmd) (h : smooth false none c = true) :
    ∃ n, exec n (.run c [] []) = ((means false none c).1, endSt (means false none c).2) := by
  have g := means_goes c [] [] false none rfl h
  unfold Goes at g
  cases hm : means false none c with
  | mk t e =>
    rw [hm] at g
    cases e with
    | thrown x => exact g.1
    | normal q =>
      obtain ⟨cs', g1, g2, _⟩ := g
      cases cs' with
      | cons c r => exact g2.elim
      | nil =>
        have h2 : Steps (.run .skip [] []) [] .halt := ⟨1, rfl⟩
        have := g1.trans h2
        rw [List.append_nil] at this
        exact this

/-- Once ended, the machine stays so: the marks and the end above are the only ones. -/
theorem c80_ends_once (c : Cmd) (m n : Nat) (t u : List Nat) (e e' : Ends) (h : exec m (.run c [] []) = (t, endSt e))
    (h' : exec n (.run c [] []) = (u, endSt e')) : t = u ∧ endSt e = endSt e' := by
  have stay : ∀ (k : Nat) (e : Ends), exec k (endSt e) = ([], endSt e) := by
    intro k e
    induction k with
    | zero => rfl
    | succ k ih => cases e <;> (simp only [exec, endSt, Except.step] at ih ⊢; rw [ih]; rfl)
  have key : ∀ (m k : Nat) (t u : List Nat) (e e' : Ends), exec m (.run c [] []) = (t, endSt e) →
      exec (m + k) (.run c [] []) = (u, endSt e') → t = u ∧ endSt e = endSt e' := by
    intro m k t u e e' h h'
    rw [exec_add, h] at h'
    simp only [stay] at h'
    simp only [List.append_nil, Prod.mk.injEq] at h'
    exact h'
  cases Nat.le_total m n with
  | inl hl =>
    obtain ⟨k, rfl⟩ := Nat.exists_eq_add_of_le hl
    exact key m k t u e e' h h'
  | inr hl =>
    obtain ⟨k, rfl⟩ := Nat.exists_eq_add_of_le hl
    have := key n k u t e' e h' h
    exact ⟨this.1.symm, this.2.symm⟩

/-- Wherever a smooth statement stands, it gives back the stack of blocks it was given: only what is pending in the innermost
block may differ. -/
theorem c80_stack (c : Cmd) (k : List Frame) (cs : List Ctx) (inLast : Bool) (p : Option Nat) (hc : Stands cs inLast p)
    (h : smooth inLast p c = true) (t : List Nat) (q : Option Nat) (hm : means inLast p c = (t, .normal q)) :
    ∃ n cs', exec n (.run c k cs) = (t, .run .skip k cs') ∧ cs'.length = cs.length ∧ cs'.tail = cs.tail := by
  have g := means_goes c k cs inLast p hc h
  unfold Goes at g
  rw [hm] at g
  obtain ⟨cs', ⟨n, g1⟩, g2, _⟩ := g
  refine ⟨n, cs', g1, ?_⟩
  cases cs with
  | nil => cases cs' with
    | nil => exact ⟨rfl, rfl⟩
    | cons c r => exact g2.elim
  | cons a r => cases cs' with
    | nil => exact g2.elim
    | cons b r' =>
      obtain ⟨_, _, _, rfl⟩ := g2
      exact ⟨rfl, rfl⟩

/-- A part that only does things. -/
def marks : List Nat → Cmd
  | [] => .skip
  | n :: l => .seq (.act n) (marks l)

theorem means_marks (i : Bool) (p : Option Nat) (l : List Nat) : means i p (marks l) = (l, .normal p) := by
  induction l with
  | nil => rfl
  | cons n l ih => simp [marks, means, ih]

theorem smooth_marks (i : Bool) (p : Option Nat) (l : List Nat) : smooth i p (marks l) = true := by
  induction l with
  | nil => rfl
  | cons n l ih => simp [marks, smooth, means, ih]

/-- What XFINALLY says is done exactly once, after the body, whether an exception comes or not, and the exception goes on. -/
theorem c80_finally_once (b : Cmd) (l : List Nat) (h : smooth false none b = true) :
    ∃ m n t e, exec m (.run b [] []) = (t, endSt e) ∧ exec n (.run (.fin b (marks l)) [] []) = (t ++ l, endSt e) := by
  obtain ⟨m, hm⟩ := c80_structured_partial b h
  obtain ⟨n, hn⟩ := c80_structured_partial (.fin b (marks l)) (by
    simp only [smooth, h, Bool.true_and]
    split <;> simp [smooth_marks, mayLeave])
  refine ⟨m, n, _, _, hm, ?_⟩
  rw [hn]
  simp only [means]
  cases hb : means false none b with
  | mk t e => cases e <;> simp [means_marks, leaves, lets, endSt]

/-- What XCATCHALL says is done exactly when an exception comes, and it goes on unless it is handled there. -/
theorem c80_catchall (b : Cmd) (l : List Nat) (x : Nat) (m : Nat) (t : List Nat) (h : smooth false none b = true)
    (hm : exec m (.run b [] []) = (t, .exit x)) :
    (∃ n, exec n (.run (.catchAll b (marks l)) [] []) = (t ++ l, .exit x)) ∧
    (∃ n, exec n (.run (.catchAll b (.seq (marks l) .handled)) [] []) = (t ++ l, .halt)) := by
  obtain ⟨m', hm'⟩ := c80_structured_partial b h
  have hu := c80_ends_once b m m' t _ (.thrown x) _ hm hm'
  have hb : means false none b = (t, .thrown x) := by
    cases hb : means false none b with
    | mk u e =>
      rw [hb] at hu
      cases e with
      | normal p => exact absurd hu.2 (by simp [endSt])
      | thrown y =>
        obtain ⟨rfl, h2⟩ := hu
        simp only [endSt, St.exit.injEq] at h2
        rw [h2]
  constructor
  · obtain ⟨n, hn⟩ := c80_structured_partial (.catchAll b (marks l)) (by simp [smooth, h, hb, smooth_marks, mayLeave])
    exact ⟨n, by rw [hn]; simp [means, hb, means_marks, leaves, lets, endSt]⟩
  · obtain ⟨n, hn⟩ := c80_structured_partial (.catchAll b (.seq (marks l) .handled))
      (by simp [smooth, h, hb, smooth_marks, means_marks, mayLeave])
    exact ⟨n, by rw [hn]; simp [means, hb, means_marks, leaves, endSt]⟩

/-- A nested program: an exception passes a finally part, is not caught by one block, is caught by the next; a raise in the
finally part of the last block gets out after the part is done. -/
def nested : Cmd :=
  .seq (.case [5] (.case [7] (.fin (.seq (.act 1) (.seq (.raise 5) (.act 2))) (.act 3)) (.act 4)) (.seq (.act 6) .handled))
    (.fin (.act 8) (.seq (.raise 9) (.act 10)))

example : smooth false none nested = true ∧ means false none nested = ([1, 3, 6, 8, 10], .thrown 9) := by decide

example : exec 100 (.run nested [] []) = ([1, 3, 6, 8, 10], .exit 9) := by decide

/-- The first exception of a finally part is the one that gets out, and one from the body comes before it. -/
example : exec 100 (.run (.fin .skip (.seq (.raise 5) (.raise 6))) [] []) = ([], .exit 5) ∧
    exec 100 (.run (.fin (.raise 4) (.seq (.raise 5) (.raise 6))) [] []) = ([], .exit 4) := by decide

/-- The hypotheses of `c80_stack` inside a part. -/
example : Stands [{ newCtx (.last .skip) [] with inFin := true }] true none ∧
    smooth true none (.seq (.case [5] (.raise 5) .handled) (.raise 6)) = true ∧
    means true none (.seq (.case [5] (.raise 5) .handled) (.raise 6)) = ([], .normal (some 6)) := ⟨⟨rfl, rfl⟩, by decide, by decide⟩

/-- The hypotheses of `c80_catchall`. -/
example : smooth false none (.seq (.act 1) (.raise 5)) = true ∧ exec 9 (.run (.seq (.act 1) (.raise 5)) [] []) = ([1], .exit 5) := by decide

/-- A block with a FINALLY part whose exceptions are handled. -/
example : smooth false none (.full [5] (.seq (.act 1) (.raise 5)) (.seq (.act 2) .handled) (.act 3)) = true ∧
    exec 20 (.run (.full [5] (.seq (.act 1) (.raise 5)) (.seq (.act 2) .handled) (.act 3)) [] []) = ([1, 2, 3], .halt) := by decide

/-- A state the machine comes back to, leaving marks, goes round for ever. -/
theorem round (n : Nat) (s : St) (t : List Nat) (h : exec n s = (t, s)) (k : Nat) :
    exec (n * k) s = ((List.replicate k t).flatten, s) := by
  induction k with
  | zero => rfl
  | succ k ih => rw [Nat.mul_succ, Nat.add_comm, exec_add, h]; simp [ih, List.replicate_succ]

/-- A finally part with a block that lets an exception out. -/
def finBlock : Cmd := .fin .skip (.seq (.act 1) (.fin (.raise 5) .skip))

theorem c80_finally_meant : means false none finBlock = ([1], .thrown 5) := by decide

/-- It should be done once and the exception get out; it is begun again for ever, and the program never ends. -/
theorem c80_finally_never_ends (k : Nat) : ∃ n c f cs, exec n (.run finBlock [] []) = (List.replicate (k + 1) 1, .run c f cs) := by
  have h1 : (exec 8 (.run finBlock [] [])).1 = [1] := by decide
  have h2 : exec 6 (exec 8 (.run finBlock [] [])).2 = ([1], (exec 8 (.run finBlock [] [])).2) := by decide
  refine ⟨8 + 6 * k, ?_⟩
  rw [exec_add, round 6 _ _ h2 k, h1]
  refine ⟨.seq (.act 1) (.fin (.raise 5) .skip), [.leave],
    [⟨.last (.seq (.act 1) (.fin (.raise 5) .skip)), [], false, true, 5⟩], Prod.ext ?_ (by simp only []; decide)⟩
  simp [List.replicate_succ]

/-- A `case` part that raises again what it caught, to pass it on. -/
def caseAgain : Cmd := .case [5] (.raise 5) (.seq (.act 1) (.raise 5))

theorem c80_case_meant : means false none caseAgain = ([1], .thrown 5) := by decide

/-- The exception does not get out: the part is begun again for ever. -/
theorem c80_case_never_ends (k : Nat) : ∃ n c f cs, exec n (.run caseAgain [] []) = (List.replicate k 1, .run c f cs) := by
  have h1 : (exec 2 (.run caseAgain [] [])).1 = [] := by decide
  have h2 : exec 4 (exec 2 (.run caseAgain [] [])).2 = ([1], (exec 2 (.run caseAgain [] [])).2) := by decide
  refine ⟨2 + 4 * k, ?_⟩
  rw [exec_add, round 4 _ _ h2 k, h1]
  refine ⟨.seq (.act 1) (.raise 5), [.leave], [⟨.case [5] (.seq (.act 1) (.raise 5)), [], false, false, 5⟩], Prod.ext ?_ (by simp only []; decide)⟩
  simp

/-- The FINALLY part of a block with `case` parts is not run when the exception is none of them, or is not handled. -/
theorem c80_finally_skipped :
    exec 10 (.run (.full [5] (.raise 6) .handled (.act 1)) [] []) = ([], .exit 6) ∧
    means false none (.full [5] (.raise 6) .handled (.act 1)) = ([1], .thrown 6) ∧
    exec 10 (.run (.full [5] (.raise 5) .skip (.act 1)) [] []) = ([], .exit 5) ∧
    means false none (.full [5] (.raise 5) .skip (.act 1)) = ([1], .thrown 5) := by decide

#print axioms c80_structured_partial
#print axioms c80_ends_once
#print axioms c80_stack
#print axioms c80_finally_once
#print axioms c80_catchall
#print axioms c80_finally_meant
#print axioms c80_finally_never_ends
#print axioms c80_case_meant
#print axioms c80_case_never_ends
#print axioms c80_finally_skipped
end Ferret.Props
