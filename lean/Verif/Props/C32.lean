import Verif.Props.C51

/-!
C32: a reader that is not at the latest version refuses to change the index, so no commit is
overwritten by one made from an older version. As the code stands this fails after a refused change
(`c32_refused_reader_overwrites`), because the second attempt skips the check.
-/

namespace Ferret.Props
open Ferret.WLock Ferret.Spec
open Ferret.Lock (Kind)

/-- In every history of writers and readers in which so far nobody was refused the lock and nobody
asked about it, every commit, by a writer or a reader, is based on the version it replaces. Missing:
histories with refused attempts, where it is false, see below. -/
theorem c32_no_lost_update_partial (k : Kind) (v : Nat) (calls : List Call) (r : List WObs × State)
    (hr : WLock.run k (WLock.init v) calls = some r) (hq : Undisturbed r.1) : NoLostUpdate v r.1 := by
  have := (WLock.run_inv calls (WLock.inv_init v) hr hq).upd
  simpa using this

/-- In any state, reachable or not: a reader that does not have the lock and is behind the version of
the index has its change refused, and is not changed by it. -/
theorem c32_behind_is_refused (k : Kind) (s : State) (c : Nat) (rd : Rd) (hc : s.cl c = .reader rd) (hl : rd.lock = false)
    (hv : rd.ver < s.ver) : ∃ x, WLock.step k s (.change c) = some x ∧ (x.1 = [.locked c] ∨ x.1 = [.outOfDate c]) ∧
      ∃ rd', x.2.cl c = .reader rd' ∧ rd'.changes = rd.changes ∧ rd'.ver = rd.ver := by
  simp only [WLock.step, hc, WLock.change, hl, hv, gt_iff_lt, if_true, Bool.false_eq_true, if_false]
  refine ⟨_, rfl, ?_⟩
  cases hs : rd.stale with
  | true => exact ⟨.inr rfl, rd, hc, rfl, rfl⟩
  | false =>
    cases hf : s.file with
    | true => exact ⟨.inl rfl, { rd with lock := true, stale := false }, by simp [WLock.put_cl], rfl, rfl⟩
    | false => exact ⟨.inr rfl, { rd with stale := true, lock := false }, by simp [WLock.put_cl], rfl, rfl⟩

/-- A reader that was once found out of date stays refused. -/
theorem c32_stale_stays_refused (k : Kind) (s : State) (c : Nat) (rd : Rd) (hc : s.cl c = .reader rd) (hs : rd.stale = true) :
    WLock.step k s (.change c) = some ([.outOfDate c], s) := by
  simp only [WLock.step, hc, WLock.change, hs, if_true]

example : ∃ r, WLock.run .ram (WLock.init 4) calm = some r ∧ Undisturbed r.1 ∧ (∃ rd, r.2.cl 7 = .reader rd ∧ rd.stale = true) :=
  ⟨_, rfl, by unfold Undisturbed; decide, _, rfl, rfl⟩

example : ∃ r rd, WLock.run .ram (WLock.init 4) [.openReader 7, .openWriter 0, .commitWriter 0] = some r ∧ r.2.cl 7 = .reader rd ∧
    rd.lock = false ∧ rd.ver < r.2.ver := ⟨_, _, rfl, rfl, rfl, by decide⟩

/-- A reader refused because a writer is open, tried again after the writer committed: the change is
accepted although the reader is behind, and its commit replaces the writer's. -/
theorem c32_refused_reader_overwrites (k : Kind) (v : Nat) :
    ∃ r, WLock.run k (WLock.init v) [.openReader 5, .openWriter 0, .change 5, .commitWriter 0, .closeWriter 0, .change 5, .commitReader 5] = some r ∧
      r.1 = [.openedReader 5, .opened 0, .locked 5, .commit 0 v (v + 1), .done 0, .changed 5, .commit 5 v (v + 1), .done 5] ∧
      ¬ NoLostUpdate v r.1 := by
  refine ⟨_, rfl, rfl, fun h => ?_⟩
  have := (h [.openedReader 5, .opened 0, .locked 5, .commit 0 v (v + 1), .done 0, .changed 5] 5 v (v + 1) ⟨[.done 5], rfl⟩).1
  simp [versionAfter] at this

#print axioms c32_no_lost_update_partial
#print axioms c32_behind_is_refused
#print axioms c32_stale_stays_refused
#print axioms c32_refused_reader_overwrites
end Ferret.Props
