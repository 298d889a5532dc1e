import Verif.Lemmas.Cleanup

/-!
# C105: what is registered for cleanup is freed once, in order
-/

namespace Ferret.Props
open Ferret Ferret.Cleanup

/-- Whatever is registered, and whatever the functions that free register themselves: the array is never left, and if cleaning up ends, what was freed is
what had been registered, followed by what each of those freed registered, in order, each once; and nothing is registered any more. -/
theorem c105_freed_once (regs : List Nat) (act : Nat → List Nat) (fuel : Nat) :
    ∃ st, registerAll {} regs = .ok st ∧
      (cleanUp act fuel st = .ok none ∨ ∃ freed, cleanUp act fuel st = .ok (some (freed, {})) ∧ freed = regs ++ freed.flatMap act) := by
  obtain ⟨st, a, b⟩ := registerAll_inv regs (st := {}) (items := []) ⟨rfl, 0, rfl⟩
  refine ⟨st, a, ?_⟩
  rw [List.nil_append] at b
  rcases loop_inv act regs fuel (i := 0) b (Nat.zero_le _) (by simp) with h | ⟨l, h1, h2⟩
  · left; unfold cleanUp; rw [List.take_zero] at h; rw [h]; rfl
  · right; refine ⟨l, ?_, h2⟩; unfold cleanUp; rw [List.take_zero] at h1; rw [h1]; rfl

/-- If those functions register nothing, it ends, and what was registered is freed, in order, each once. -/
theorem c105_ends (regs : List Nat) (fuel : Nat) (hf : regs.length < fuel) :
    ∃ st, registerAll {} regs = .ok st ∧ cleanUp (fun _ => []) fuel st = .ok (some (regs, {})) := by
  obtain ⟨st, a, h⟩ := c105_freed_once regs (fun _ => []) fuel
  refine ⟨st, a, ?_⟩
  obtain ⟨st', a', b⟩ := registerAll_inv regs (st := {}) (items := []) ⟨rfl, 0, rfl⟩
  rw [a] at a'
  cases a'
  have he := loop_ends (fun _ => []) (fun _ => rfl) fuel (i := 0) [] b (Nat.zero_le _) (by rw [List.nil_append]; omega)
  rcases h with h | ⟨l, h1, h2⟩
  · unfold cleanUp at h
    cases hl : loop (fun _ => []) fuel st 0 [] with
    | ok o =>
      rw [hl] at h
      cases o with
      | none => exact absurd hl he
      | some l => cases h
    | raise e => rw [hl] at h; cases h
    | ub => rw [hl] at h; cases h
  · have h3 : ∀ m : List Nat, m.flatMap (fun _ => ([] : List Nat)) = [] := by intro m; induction m with | nil => rfl | cons x m ih => exact ih
    have : l = regs := by rw [h3, List.append_nil] at h2; exact h2
    rw [this] at h1
    exact h1

/-- Twenty things, the array grows; the third registers two more when it is freed. -/
example : (registerAll {} (List.range 20) >>= fun st => cleanUp (fun p => if p = 2 then [50, 51] else []) 100 st) = .ok (some (List.range 20 ++ [50, 51], {})) := by decide +kernel

#print axioms c105_freed_once
#print axioms c105_ends
end Ferret.Props
