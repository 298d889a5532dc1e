import Verif.Lemmas.Lock

/-!
C11: at most one holder of a named lock.

As the code stands this is false, on both kinds of store, even for the calls the library itself makes
(`c11_fs_release_close_race`, `c11_fs_is_locked_unlocks`, `c11_fs_close_unobtained`, `c11_ram_race`).
What holds is mutual exclusion among clients that release and close a lock only while they hold it
(`okRun`), with obtaining an in-memory lock not interrupted by other clients.
-/

namespace Ferret.Props
open Ferret.Lock Ferret.Spec

/-- In every interleaving of any number of clients in which a lock is released or closed only by a
client that holds it, at no time do two clients hold it. For an in-memory store, in addition, nobody
acts between the two calls that make up `obtain`. Missing: clients that release or close a lock they
do not hold, which the library does, see below. -/
theorem c11_exclusive_partial (k : Kind) (es : List Ev) (r : List LObs × State) (hok : okRun k [] init es)
    (hr : run k init es = some r) : Exclusive r.1 := by
  have := (run_inv es inv_init hok hr).past
  simpa using this

/-- Two clients compete, one wins, the loser goes through a try; a third asks whether the lock is taken. -/
def contended : List Ev := [.isLocked 2, .obtain 1, .obtain 0, .step 2, .step 1, .step 0, .isLocked 2, .release 1, .step 0, .close 0]

example : (run .fs init contended).map (·.1) = some [.told 2 false, .got 1, .told 2 true, .gave 1, .got 0, .gave 0] := by decide

example : okRun .fs [] init contended := by
  refine ⟨⟨trivial, fun h => by cases h⟩, fun r h => ?_⟩; cases h
  refine ⟨⟨trivial, fun h => by cases h⟩, fun r h => ?_⟩; cases h
  refine ⟨⟨trivial, fun h => by cases h⟩, fun r h => ?_⟩; cases h
  refine ⟨⟨trivial, fun h => by cases h⟩, fun r h => ?_⟩; cases h
  refine ⟨⟨trivial, fun h => by cases h⟩, fun r h => ?_⟩; cases h
  refine ⟨⟨trivial, fun h => by cases h⟩, fun r h => ?_⟩; cases h
  refine ⟨⟨trivial, fun h => by cases h⟩, fun r h => ?_⟩; cases h
  refine ⟨⟨by decide, fun h => by cases h⟩, fun r h => ?_⟩; cases h
  refine ⟨⟨trivial, fun h => by cases h⟩, fun r h => ?_⟩; cases h
  exact ⟨⟨fun _ => by decide, fun h => by cases h⟩, fun r h => trivial⟩

/-- A client that finds the lock free gets it, and one that finds it taken until its tries are used up
is refused: an uncontended request succeeds, and no request waits for ever. -/
theorem c11_obtain_decides (s : State) (c : Nat) (hc : s.pc c = .idle) :
    (s.file = false → ∃ s', run .fs s [.obtain c] = some ([.got c], s')) ∧
    (s.file = true → ∃ s', run .fs s (.obtain c :: List.replicate timeout (.step c)) = some ([.refused c], s') ∧ s'.file = true) := by
  constructor
  · intro hf
    exact ⟨setPC { s with file := true } c .idle, by simp [run, step, hc, tryOpen, hf]⟩
  · intro hf
    have key : ∀ n (t : State), t.file = true → t.pc c = .trying n →
        ∃ s', run .fs t (List.replicate (n + 1) (.step c)) = some ([.refused c], s') ∧ s'.file = true := by
      intro n
      induction n with
      | zero => intro t h1 h2; exact ⟨setPC t c .idle, by simp [run, step, h2, tryOpen, h1], h1⟩
      | succ n ih =>
        intro t h1 h2
        obtain ⟨s', h3, h4⟩ := ih (setPC t c (.trying n)) h1 (by simp [setPC])
        refine ⟨s', ?_, h4⟩
        rw [List.replicate_succ, run, step, h2]
        simp only [tryOpen, h1, Bool.true_eq_false, if_false, Option.bind_some]
        rw [h3]; rfl
    obtain ⟨s', h3, h4⟩ := key 9 (setPC s c (.trying 9)) hf (by simp [setPC])
    refine ⟨s', ?_, h4⟩
    rw [run, step, hc]
    simp only [ne_eq, not_true, if_false, tryOpen, timeout, hf, Bool.true_eq_false, Option.bind_some]
    rw [h3]; rfl

example : ∃ s : State, s.pc 3 = .idle ∧ s.file = true := ⟨⟨true, fun _ => .idle⟩, rfl, rfl⟩

/-- `release` followed by `close_lock`, as in iw_close, on a file system: closing removes the lock
file again, by then it is another client's; a third client gets the lock too. -/
theorem c11_fs_release_close_race :
    ∃ r, run .fs init [.obtain 0, .release 0, .obtain 1, .close 0, .obtain 2] = some r ∧
      r.1 = [.got 0, .gave 0, .got 1, .gave 0, .got 2] ∧ ¬ Exclusive r.1 := by
  refine ⟨_, rfl, rfl, fun h => ?_⟩
  have := h _ (List.prefix_refl _) 1 2 (by decide) (by decide)
  cases this

/-- `index_is_locked` on a file system removes the lock of the client that holds it. -/
theorem c11_fs_is_locked_unlocks :
    ∃ r, run .fs init [.obtain 0, .isLocked 1, .close 1, .obtain 2] = some r ∧
      r.1 = [.got 0, .told 1 true, .gave 1, .got 2] ∧ ¬ Exclusive r.1 := by
  refine ⟨_, rfl, rfl, fun h => ?_⟩
  have := h _ (List.prefix_refl _) 0 2 (by decide) (by decide)
  cases this

/-- A client whose request was refused and that releases and closes its lock object, as iw_open does,
takes the lock away from its holder; on both kinds of store. -/
theorem c11_refused_releases :
    (∃ r, run .fs init (.obtain 0 :: .obtain 1 :: List.replicate 10 (.step 1) ++ [.release 1, .close 1, .obtain 2]) = some r ∧
      r.1 = [.got 0, .refused 1, .gave 1, .gave 1, .got 2] ∧ ¬ Exclusive r.1) ∧
    (∃ r, run .ram init [.obtain 0, .step 0, .obtain 1, .step 1, .release 1, .close 1, .obtain 2, .step 2] = some r ∧
      r.1 = [.got 0, .refused 1, .gave 1, .gave 1, .got 2] ∧ ¬ Exclusive r.1) := by
  refine ⟨⟨_, rfl, rfl, fun h => ?_⟩, ⟨_, rfl, rfl, fun h => ?_⟩⟩
  · have := h _ (List.prefix_refl _) 0 2 (by decide) (by decide)
    cases this
  · have := h _ (List.prefix_refl _) 0 2 (by decide) (by decide)
    cases this

/-- Two threads that obtain an in-memory lock at the same time both get it. -/
theorem c11_ram_race :
    ∃ r, run .ram init [.obtain 0, .obtain 1, .step 0, .step 1] = some r ∧ r.1 = [.got 0, .got 1] ∧ ¬ Exclusive r.1 := by
  refine ⟨_, rfl, rfl, fun h => ?_⟩
  have := h _ (List.prefix_refl _) 0 1 (by decide) (by decide)
  cases this

#print axioms c11_exclusive_partial
#print axioms c11_obtain_decides
#print axioms c11_fs_release_close_race
#print axioms c11_fs_is_locked_unlocks
#print axioms c11_refused_releases
#print axioms c11_ram_race
end Ferret.Props
