import Verif.Lemmas.WriterLock

/-!
C51: the writer lock is exclusive.

As the code stands this holds only until the first failed attempt, or the first call of
`index_is_locked` on a file system: a failed iw_open removes the lock of the writer that holds it
(`c51_failed_open_unlocks`), so does `index_is_locked` (`c51_is_locked_unlocks`), and a reader whose
change was refused has the next one accepted (`c51_refused_reader_changes_anyway`).
-/

namespace Ferret.Props
open Ferret.WLock Ferret.Spec
open Ferret.Lock (Kind)

/-- In every history of writers and readers, in which so far nobody was refused the lock and nobody
asked about it, at no time are two clients modifying the index. Missing: histories with refused
attempts, where it is false, see below. -/
theorem c51_exclusive_partial (k : Kind) (v : Nat) (calls : List Call) (r : List WObs × State)
    (hr : WLock.run k (WLock.init v) calls = some r) (hq : Undisturbed r.1) : OneModifier r.1 := by
  have := (WLock.run_inv calls (WLock.inv_init v) hr hq).one
  simpa using this

/-- After such a history, an attempt to open a writer while some client is modifying the index is
refused, and so is a change through a reader, unless it is the client that is modifying already. -/
theorem c51_second_refused_partial (k : Kind) (v : Nat) (calls : List Call) (r : List WObs × State)
    (hr : WLock.run k (WLock.init v) calls = some r) (hq : Undisturbed r.1) (c d : Nat) (hc : modifying c r.1 = true) (hd : d ≠ c) :
    (∀ x, WLock.step k r.2 (.openWriter d) = some x → x.1 = [.locked d]) ∧
    (∀ x, WLock.step k r.2 (.change d) = some x → x.1 = [.locked d] ∨ x.1 = [.outOfDate d]) := by
  have h := WLock.run_inv calls (WLock.inv_init v) hr hq
  rw [List.nil_append] at h
  obtain ⟨b, hb⟩ := h.mod c hc
  have hf := (h.file c b hb).1
  constructor
  · intro x hx
    simp only [WLock.step] at hx
    split at hx
    · rw [if_pos hf] at hx; cases hx; rfl
    · cases hx
  · intro x hx
    simp only [WLock.step] at hx
    split at hx
    · rename_i r0 hr0
      cases hx
      simp only [WLock.change, hf, if_true]
      split
      · exact .inr rfl
      · split
        · rename_i hl
          have : base (r.2.cl d) = some r0.ver := by rw [hr0]; simp [base, hl]
          exact absurd (h.uniq d c _ _ this hb) hd
        · exact .inl rfl
    · cases hx

/-- A history with three clients. -/
def calm : List Call := [.openReader 7, .openWriter 0, .commitWriter 0, .closeWriter 0, .change 7, .openReader 8, .change 8, .change 8,
  .commitReader 8, .openWriter 1, .commitWriter 1]

example : (WLock.run .fs (WLock.init 4) calm).map (·.1) = some [.openedReader 7, .opened 0, .commit 0 4 5, .done 0, .outOfDate 7,
    .openedReader 8, .changed 8, .changed 8, .commit 8 5 6, .done 8, .opened 1, .commit 1 6 7] := by decide

example : ∃ r, WLock.run .fs (WLock.init 4) calm = some r ∧ Undisturbed r.1 ∧ modifying 1 r.1 = true :=
  ⟨_, rfl, by unfold Undisturbed; decide, by decide⟩

/-- A failed attempt to open a second writer takes the lock from the first: the next attempt succeeds,
and two writers are open. On both kinds of store. -/
theorem c51_failed_open_unlocks (k : Kind) (v : Nat) :
    ∃ r, WLock.run k (WLock.init v) [.openWriter 0, .openWriter 1, .openWriter 2] = some r ∧
      r.1 = [.opened 0, .locked 1, .opened 2] ∧ ¬ OneModifier r.1 := by
  refine ⟨_, rfl, rfl, fun h => ?_⟩
  have := h _ (List.prefix_refl _) 0 2 rfl rfl
  cases this

/-- Asking whether the index is locked unlocks it, on a file system. -/
theorem c51_is_locked_unlocks (v : Nat) :
    ∃ r, WLock.run .fs (WLock.init v) [.openWriter 0, .isLocked 1, .openWriter 2] = some r ∧
      r.1 = [.opened 0, .told 1 true, .opened 2] ∧ ¬ OneModifier r.1 := by
  refine ⟨_, rfl, rfl, fun h => ?_⟩
  have := h _ (List.prefix_refl _) 0 2 rfl rfl
  cases this

/-- A reader whose change was refused because a writer is open has its next change accepted, without
the lock. -/
theorem c51_refused_reader_changes_anyway (k : Kind) (v : Nat) :
    ∃ r, WLock.run k (WLock.init v) [.openReader 5, .openWriter 0, .change 5, .change 5] = some r ∧
      r.1 = [.openedReader 5, .opened 0, .locked 5, .changed 5] ∧ ¬ OneModifier r.1 := by
  refine ⟨_, rfl, rfl, fun h => ?_⟩
  have := h _ (List.prefix_refl _) 0 5 rfl rfl
  cases this

#print axioms c51_exclusive_partial
#print axioms c51_second_refused_partial
#print axioms c51_failed_open_unlocks
#print axioms c51_is_locked_unlocks
#print axioms c51_refused_reader_changes_anyway
end Ferret.Props
