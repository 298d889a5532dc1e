import Verif.Model.MultiLock
import Verif.Props.C51
import Verif.Props.C32

/-!
C95: changes that are made through a reader of several indexes are guarded like changes to each of them: they exclude writers and other readers that change it, and overwrite nothing that was committed.

This holds for norms. Deletions and undeletions do not take the write lock of the index and do not look whether the reader is out of date: a document is deleted while a writer is open, and the commit overwrites
what was committed since the reader was opened.
-/

namespace Ferret.Props
open Ferret.WLock Ferret.MLock Ferret.Spec
open Ferret.Lock (Kind)

/-- What was seen of index `i`. -/
def ofIndex (i : Nat) (tr : List (Nat × WObs)) : List WObs := tr.filterMap fun x => if x.1 = i then some x.2 else none

/-- The call does not delete or undelete through a reader of several indexes. -/
def notDelete : MCall → Bool
  | .deleteVia _ _ => false
  | _ => true

theorem ofIndex_append (i : Nat) (a b : List (Nat × WObs)) : ofIndex i (a ++ b) = ofIndex i a ++ ofIndex i b := List.filterMap_append

theorem ofIndex_map (i j : Nat) (l : List WObs) : ofIndex i (l.map fun o => (j, o)) = if j = i then l else [] := by
  unfold ofIndex
  rw [List.filterMap_map]
  by_cases h : j = i
  · rw [if_pos h]
    have : ((fun x : Nat × WObs => if x.1 = i then some x.2 else none) ∘ fun o => (j, o)) = some := by funext o; simp [h]
    rw [this, List.filterMap_some]
  · rw [if_neg h]
    have : ((fun x : Nat × WObs => if x.1 = i then some x.2 else none) ∘ fun o => (j, o)) = fun _ => none := by funext o; simp [h]
    rw [this]
    simp

theorem stepAt_proj {k : Kind} {f f' : Nat → State} {j : Nat} {e : Call} {tr : List (Nat × WObs)} (h : stepAt k f j e = some (tr, f')) (i : Nat) :
    ∃ es, WLock.run k (f i) es = some (ofIndex i tr, f' i) := by
  unfold stepAt at h
  cases hs : step k (f j) e with
  | none => rw [hs] at h; cases h
  | some r =>
    rw [hs] at h
    simp only [Option.map_some, Option.some.injEq, Prod.mk.injEq] at h
    obtain ⟨rfl, rfl⟩ := h
    rw [ofIndex_map]
    by_cases hji : j = i
    · subst hji
      refine ⟨[e], ?_⟩
      rw [if_pos rfl]
      simp [WLock.run, hs, setIdx]
    · refine ⟨[], ?_⟩
      rw [if_neg hji]
      simp [WLock.run, setIdx, Ne.symm hji]

theorem run_append {k : Kind} : ∀ {es es' : List Call} {s s' s'' : State} {tr tr' : List WObs}, WLock.run k s es = some (tr, s') → WLock.run k s' es' = some (tr', s'') →
    WLock.run k s (es ++ es') = some (tr ++ tr', s'')
  | [], es', s, s', s'', tr, tr', h, h' => by
    cases h
    exact h'
  | e :: es, es', s, s', s'', tr, tr', h, h' => by
    unfold WLock.run at h
    cases hs : step k s e with
    | none => rw [hs] at h; cases h
    | some r =>
      rw [hs, Option.bind_some] at h
      cases hr : WLock.run k r.2 es with
      | none => rw [hr] at h; cases h
      | some r' =>
        rw [hr] at h
        simp only [Option.map_some, Option.some.injEq, Prod.mk.injEq] at h
        obtain ⟨rfl, rfl⟩ := h
        have := run_append (s := r.2) (s' := r'.2) (tr := r'.1) (by rw [hr]) h'
        rw [List.cons_append]
        unfold WLock.run
        rw [hs, Option.bind_some, this]
        simp

theorem each_proj {k : Kind} {e : Call} : ∀ {is : List Nat} {f f' : Nat → State} {tr : List (Nat × WObs)}, each k e is f = some (tr, f') → ∀ i, ∃ es, WLock.run k (f i) es = some (ofIndex i tr, f' i)
  | [], f, f', tr, h, i => by
    cases h
    exact ⟨[], rfl⟩
  | j :: is, f, f', tr, h, i => by
    unfold each at h
    cases hs : stepAt k f j e with
    | none => rw [hs] at h; cases h
    | some r =>
      rw [hs, Option.bind_some] at h
      cases hr : each k e is r.2 with
      | none => rw [hr] at h; cases h
      | some r' =>
        rw [hr] at h
        simp only [Option.map_some, Option.some.injEq, Prod.mk.injEq] at h
        obtain ⟨rfl, rfl⟩ := h
        obtain ⟨es, h1⟩ := stepAt_proj (f' := r.2) (tr := r.1) hs i
        obtain ⟨es', h2⟩ := each_proj (f := r.2) (f' := r'.2) (tr := r'.1) hr i
        exact ⟨es ++ es', by rw [ofIndex_append]; exact run_append h1 h2⟩

theorem mstep_proj {k : Kind} {n : Nat} {s s' : MState} {c : MCall} {tr : List (Nat × WObs)} (hc : notDelete c = true) (h : mstep k n s c = some (tr, s')) (i : Nat) :
    ∃ es, WLock.run k (s.idx i) es = some (ofIndex i tr, s'.idx i) := by
  have fin : ∀ {x : Option (List (Nat × WObs) × (Nat → State))} {g : List (Nat × WObs) × (Nat → State) → List (Nat × WObs) × MState}, (∀ r, (g r).1 = r.1 ∧ (g r).2.idx = r.2) →
      x.map g = some (tr, s') → x = some (tr, s'.idx) := by
    intro x g hg hx
    cases x with
    | none => cases hx
    | some r =>
      simp only [Option.map_some, Option.some.injEq] at hx
      obtain ⟨h1, h2⟩ := hg r
      rw [hx] at h1 h2
      obtain ⟨a, b⟩ := r
      dsimp only at h1 h2
      subst h1
      rw [← h2]
  cases c with
  | one j e => exact stepAt_proj (fin (fun _ => ⟨rfl, rfl⟩) h) i
  | openMulti m => exact each_proj (fin (fun _ => ⟨rfl, rfl⟩) h) i
  | normVia m j => exact stepAt_proj (fin (fun _ => ⟨rfl, rfl⟩) h) i
  | deleteVia m j => cases hc
  | commitVia m =>
    unfold mstep at h
    dsimp only at h
    split at h
    · exact each_proj (fin (fun _ => ⟨rfl, rfl⟩) h) i
    · cases h
      exact ⟨[], rfl⟩

theorem mrun_proj {k : Kind} {n : Nat} : ∀ {cs : List MCall} {s s' : MState} {tr : List (Nat × WObs)}, (∀ c ∈ cs, notDelete c = true) → mrun k n s cs = some (tr, s') → ∀ i,
    ∃ es, WLock.run k (s.idx i) es = some (ofIndex i tr, s'.idx i)
  | [], s, s', tr, _, h, i => by
    cases h
    exact ⟨[], rfl⟩
  | c :: cs, s, s', tr, hc, h, i => by
    unfold mrun at h
    cases hs : mstep k n s c with
    | none => rw [hs] at h; cases h
    | some r =>
      rw [hs, Option.bind_some] at h
      cases hr : mrun k n r.2 cs with
      | none => rw [hr] at h; cases h
      | some r' =>
        rw [hr] at h
        simp only [Option.map_some, Option.some.injEq, Prod.mk.injEq] at h
        obtain ⟨rfl, rfl⟩ := h
        obtain ⟨es, h1⟩ := mstep_proj (tr := r.1) (s' := r.2) (hc c (List.mem_cons_self ..)) hs i
        obtain ⟨es', h2⟩ := mrun_proj (s := r.2) (s' := r'.2) (tr := r'.1) (fun c' hc' => hc c' (List.mem_cons_of_mem _ hc')) hr i
        exact ⟨es ++ es', by rw [ofIndex_append]; exact run_append h1 h2⟩

/-- **Norms are guarded.** In every history of writers, readers and readers of several indexes that do not delete, in every index in which nobody was refused the lock and nobody asked about it: at no time are two clients
modifying the index, and every commit is based on the version that it replaces. Missing: histories with refused attempts (C51), and deletions through readers of several indexes, where it is false. -/
theorem c95_norms_guarded_partial (k : Kind) (n : Nat) (v : Nat → Nat) (calls : List MCall) (hc : ∀ c ∈ calls, notDelete c = true) (r : List (Nat × WObs) × MState) (hr : mrun k n (minit v) calls = some r)
    (i : Nat) (hq : Undisturbed (ofIndex i r.1)) : OneModifier (ofIndex i r.1) ∧ NoLostUpdate (v i) (ofIndex i r.1) := by
  obtain ⟨es, h⟩ := mrun_proj (s' := r.2) (tr := r.1) hc hr i
  exact ⟨c51_exclusive_partial k (v i) es _ h hq, c32_no_lost_update_partial k (v i) es _ h hq⟩

/-- A reader of two indexes sets norms in both and commits; then there is a writer for the second one. -/
def manyCalls : List MCall := [.openMulti 5, .normVia 5 0, .normVia 5 1, .normVia 5 1, .commitVia 5, .one 1 (.openWriter 0), .one 1 (.commitWriter 0), .one 1 (.closeWriter 0), .normVia 5 0, .normVia 5 1, .commitVia 5]

example : (∀ c ∈ manyCalls, notDelete c = true) ∧ (mrun .fs 2 (minit fun _ => 3) manyCalls).map (fun r => (ofIndex 0 r.1, ofIndex 1 r.1)) =
    some ([.openedReader 5, .changed 5, .commit 5 3 4, .done 5, .changed 5, .commit 5 4 5, .done 5],
      [.openedReader 5, .changed 5, .changed 5, .commit 5 3 4, .done 5, .opened 0, .commit 0 4 5, .done 0, .outOfDate 5]) := by decide

/-- **Deletions do not exclude writers.** While a writer is open for the first of two indexes, a document of it is deleted through the reader of both. -/
theorem c95_delete_while_writing (k : Kind) (v : Nat → Nat) :
    ∃ r, mrun k 2 (minit v) [.openMulti 5, .one 0 (.openWriter 0), .deleteVia 5 0] = some r ∧
      ofIndex 0 r.1 = [.openedReader 5, .opened 0, .changed 5] ∧ Undisturbed (ofIndex 0 r.1) ∧ ¬ OneModifier (ofIndex 0 r.1) := by
  refine ⟨_, rfl, rfl, ?_, fun h => ?_⟩
  · intro o ho
    have : o ∈ ([.openedReader 5, .opened 0, .changed 5] : List WObs) := ho
    simp only [List.mem_cons, List.not_mem_nil, or_false] at this
    rcases this with rfl | rfl | rfl <;> rfl
  · have := h _ (List.prefix_refl _) 0 5 rfl rfl
    cases this

/-- **Deletions overwrite what was committed.** After the reader of both was opened, a writer commits to the first index and is closed. The document that is deleted then through the reader is committed to the version
that the reader was opened with: what the writer committed is lost. -/
theorem c95_delete_loses_commit (k : Kind) (v : Nat → Nat) :
    ∃ r, mrun k 2 (minit v) [.openMulti 5, .one 0 (.openWriter 0), .one 0 (.commitWriter 0), .one 0 (.closeWriter 0), .deleteVia 5 0, .commitVia 5] = some r ∧
      ofIndex 0 r.1 = [.openedReader 5, .opened 0, .commit 0 (v 0) (v 0 + 1), .done 0, .changed 5, .commit 5 (v 0) (v 0 + 1), .done 5] ∧ ¬ NoLostUpdate (v 0) (ofIndex 0 r.1) := by
  refine ⟨_, rfl, rfl, fun h => ?_⟩
  have := (h [.openedReader 5, .opened 0, .commit 0 (v 0) (v 0 + 1), .done 0, .changed 5] 5 (v 0) (v 0 + 1) ⟨[.done 5], rfl⟩).1
  have hv : versionAfter (v 0) [.openedReader 5, .opened 0, .commit 0 (v 0) (v 0 + 1), .done 0, .changed 5] = v 0 + 1 := rfl
  rw [hv] at this
  omega

/-- Committing through a reader of several indexes leaves what others set through theirs to be committed. -/
theorem c95_commit_keeps_others (k : Kind) (n : Nat) (s s' : MState) (tr : List (Nat × WObs)) (m d : Nat) (hd : d ≠ m) (h : mstep k n s (.commitVia m) = some (tr, s')) :
    s'.dirty d = s.dirty d := by
  unfold mstep at h
  dsimp only at h
  split at h
  · rw [Option.map_eq_some_iff] at h
    obtain ⟨r, -, hr⟩ := h
    cases hr
    exact if_neg hd
  · cases h
    rfl

/-- Two readers of both indexes set norms in one each; what the second set is committed although the first committed before. -/
example (k : Kind) : (mrun k 2 (minit fun _ => 3) [.openMulti 5, .openMulti 6, .normVia 5 0, .normVia 6 1, .commitVia 5, .commitVia 6]).map (fun r => (ofIndex 0 r.1, ofIndex 1 r.1)) =
    some ([.openedReader 5, .openedReader 6, .changed 5, .commit 5 3 4, .done 5], [.openedReader 5, .openedReader 6, .changed 6, .commit 6 3 4, .done 6]) := by cases k <;> decide

#print axioms c95_norms_guarded_partial
#print axioms c95_delete_while_writing
#print axioms c95_delete_loses_commit
#print axioms c95_commit_keeps_others
end Ferret.Props
