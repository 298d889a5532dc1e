import Verif.Lemmas.Ind

/-!
C72: reads through an Index show the documents that were added through it and not deleted, and what
other processes committed; nothing that was flushed is missing on disk.
-/

namespace Ferret.Props
open Ferret Ferret.Spec
open Ferret.Ind (run fresh step)

/-- Who writes: nobody else, or others too, the index having segments at the start, check_latest being
set, and index_delete_term not being called after a commit of others before anything looked at the
index. -/
def Allowed {α} (c : Com α) (checkLatest : Bool) (ops : List (IndOp α)) : Prop :=
  Alone ops ∨ (c.segs ≠ 0 ∧ checkLatest = true ∧ Looks false ops)

private theorem allowed_st {α} {c : Com α} {v : Nat} {af cl : Bool} {ops : List (IndOp α)} (h : Allowed c cl ops) :
    ∃ m, Ind.St m false (live c.docs) (fresh c v af cl) ∧ (m = false → Alone ops) ∧ (m = true → Looks false ops) := by
  rcases h with h | ⟨h1, h2, h3⟩
  · exact ⟨false, Ind.fresh_st _ c v af cl (fun e => nomatch e) (fun e => nomatch e), fun _ => h, fun e => nomatch e⟩
  · exact ⟨true, Ind.fresh_st _ c v af cl (fun _ => h1) (fun _ => h2), (fun e => nomatch e), fun _ => h3⟩

/-- Every history of calls in which no lock was refused shows what the specification allows: reads show
exactly the documents that were there, were added or were committed by others, and were not deleted, in
order, whatever the Index has buffered and whichever reader or writer it has open. -/
theorem c72_history_partial {α K V} (key : Option (Key α K V)) (c : Com α) (v : Nat) (autoFlush checkLatest : Bool) (ops : List (IndOp α))
    (hs : ∀ op ∈ ops, op.Sound) (ha : Allowed c checkLatest ops)
    (hl : ∀ x ∈ (run key (fresh c v autoFlush checkLatest) ops).2, x.2 ≠ .raise .lock) :
    ∃ c', Hist key (live c.docs) (run key (fresh c v autoFlush checkLatest) ops).2 c' := by
  obtain ⟨m, h1, h2, h3⟩ := allowed_st (v := v) (af := autoFlush) ha
  obtain ⟨c', h, _⟩ := Ind.run_spec key ops h1 hs h2 h3 hl
  exact ⟨c', h⟩

/-- After a flush the directory has exactly the contents that the history leads to, and the lock is
free unless another process holds it. With auto_flush the same holds after index_add_doc, index_delete,
index_delete_query and index_optimize. -/
theorem c72_flushed_partial {α K V} (key : Option (Key α K V)) (c : Com α) (v : Nat) (autoFlush checkLatest : Bool) (ops : List (IndOp α))
    (op : IndOp α) (hop : (∃ σ, op = .flush σ) ∨ (autoFlush = true ∧ op.flushes = true))
    (hs : ∀ op' ∈ ops ++ [op], op'.Sound) (ha : Allowed c checkLatest (ops ++ [op]))
    (hl : ∀ x ∈ (run key (fresh c v autoFlush checkLatest) (ops ++ [op])).2, x.2 ≠ .raise .lock)
    (hok : ∃ r, (step key (run key (fresh c v autoFlush checkLatest) ops).1 op).2 = .ok r) :
    ∃ c', Hist key (live c.docs) (run key (fresh c v autoFlush checkLatest) (ops ++ [op])).2 c' ∧
      live (run key (fresh c v autoFlush checkLatest) (ops ++ [op])).1.disk.docs = c' ∧
      ((run key (fresh c v autoFlush checkLatest) (ops ++ [op])).1.file = true →
        (run key (fresh c v autoFlush checkLatest) (ops ++ [op])).1.other.isSome) := by
  obtain ⟨m, h1, h2, h3⟩ := allowed_st (v := v) (af := autoFlush) ha
  have hauto := Ind.run_auto key ops (fresh c v autoFlush checkLatest)
  rw [Ind.run_append] at hl ⊢
  simp only at hl ⊢
  obtain ⟨c1, g1, g2⟩ := Ind.run_spec key ops h1 (fun x hx => hs x (List.mem_append_left _ hx))
    (fun e x hx => h2 e x (List.mem_append_left _ hx)) (fun e => Ind.looks_left (h3 e)) (fun x hx => hl x (List.mem_append_left _ hx))
  generalize run key (fresh c v autoFlush checkLatest) ops = R at *
  have hne : (step key R.1 op).2 ≠ .raise .lock := hl (op, _) (List.mem_append_right _ (.head _))
  obtain ⟨c2, e1, e2⟩ := Ind.step_spec (ops := []) key g2 (hs op (List.mem_append_right _ (.head _)))
    (fun e x hx => h2 e x (List.mem_append_right _ (hx ▸ .head _))) (fun e => Ind.looks_append (h3 e)) hne
  refine ⟨c2, Ind.Hist.append g1 (.cons e1 (.nil c2)), ?_⟩
  obtain ⟨r, hok⟩ := hok
  rcases hop with ⟨σ, rfl⟩ | ⟨haf, hop⟩
  · -- a flush does not depend on auto_flush
    have hσ : Tidy σ := hs _ (List.mem_append_right _ (.head _))
    have : Ind.Done c2 (step key R.1 (.flush σ)).1 := by
      refine Ind.done_of e2 ?_ ?_
      all_goals simp only [step, Ind.flush]
      · split
        · rename_i r hr
          exact (Ind.irCommit_spec g2).2.1.trans (g2.inv.one.resolve_left (by rw [hr]; exact fun e => nomatch e))
        · exact (Ind.closeWriter_spec hσ g2).2.1
      · split
        · exact (Ind.irCommit_spec g2).2.2.2.1
        · rename_i hr
          rw [(Ind.closeWriter_spec hσ g2).2.2.1, hr]
          intro r e; cases e
    exact this
  · exact Ind.step_done key g2 (hs op (List.mem_append_right _ (.head _))) (hauto.trans haf) hop hok e2

/-! ### Witnesses -/

/-- Leaves the numbering alone. -/
abbrev asIs : Com Nat → Com Nat := id

theorem tidy_asIs : Tidy asIs := ⟨fun _ => rfl, fun _ h => h⟩

/-- What the reads of a history show. -/
def shownBy {α} (tr : List (IndOp α × Res (List (Nat × α)))) : List (List (Nat × α)) :=
  tr.filterMap fun x => match x with | (.read _, .ok o) => some o | _ => none

def failures {α} (tr : List (IndOp α × Res (List (Nat × α)))) : List Err :=
  tr.filterMap fun x => match x.2 with | .raise e => some e | _ => none

abbrev noKey : Option (Key Nat Unit Nat) := none

/-- A history that meets the hypotheses: adding, deleting by number, by term and by query, with commits
of another process in between. -/
def sampleCalls : List (IndOp Nat) :=
  [.read asIs, .add 3 false false asIs, .add 4 true false asIs, .read asIs, .delete 0 asIs, .flush asIs, .otherOpen,
   .otherCommit ⟨[(1, true), (2, false), (3, false), (4, false), (5, false)], 3⟩, .otherClose, .read asIs,
   .deleteTerm (· == 2) (fun _ => true) asIs, .deleteQuery (· == 5) asIs, .optimize true asIs, .read asIs, .flush asIs]

example : (∀ op ∈ sampleCalls, op.Sound) ∧ Allowed ⟨[(1, false), (2, false)], 1⟩ true sampleCalls ∧
    (∀ x ∈ (run noKey (fresh ⟨[(1, false), (2, false)], 1⟩ 7 false true) sampleCalls).2, x.2 ≠ .raise .lock) ∧
    shownBy (run noKey (fresh ⟨[(1, false), (2, false)], 1⟩ 7 false true) sampleCalls).2 =
      [[(0, 1), (1, 2)], [(0, 1), (1, 2), (2, 3), (3, 4)], [(1, 2), (2, 3), (3, 4), (4, 5)], [(2, 3), (3, 4)]] := by
  refine ⟨?_, .inr ⟨by decide, rfl, ?_⟩, ?_, by decide⟩
  · intro op h
    simp only [sampleCalls, List.mem_cons, List.not_mem_nil, or_false] at h
    rcases h with rfl | rfl | rfl | rfl | rfl | rfl | rfl | rfl | rfl | rfl | rfl | rfl | rfl | rfl | rfl
    all_goals first | exact tidy_asIs | exact ⟨tidy_asIs, fun _ _ => rfl⟩ | trivial
  · simp [sampleCalls, Looks]
  · have : failures (run noKey (fresh ⟨[(1, false), (2, false)], 1⟩ 7 false true) sampleCalls).2 = [] := by decide
    intro x hx e
    have : Err.lock ∈ failures (run noKey (fresh ⟨[(1, false), (2, false)], 1⟩ 7 false true) sampleCalls).2 :=
      List.mem_filterMap.2 ⟨x, hx, by rw [e]⟩
    simp_all

/-- In histories that the specification allows, without other commits, a document that is there and is
not deleted is shown. -/
private theorem hist_read_after {key : Option (Key Nat Unit Nat)} {c c' : List Nat} {tr : List (IndOp Nat × Res (List (Nat × Nat)))}
    {o : List (Nat × Nat)} {σ} (h : Hist key c (tr ++ [(.read σ, .ok o)]) c') :
    ∃ c1, Hist key c tr c1 ∧ o.map (·.2) = c1 := by
  induction tr generalizing c with
  | nil =>
    cases h with
    | cons e _ => exact ⟨c, .nil c, e.1⟩
  | cons x tr ih =>
    obtain ⟨op, r⟩ := x
    cases h with
    | cons e h =>
      obtain ⟨c1, h1, h2⟩ := ih h
      exact ⟨c1, .cons e h1, h2⟩

/-- An Index that was read while the index had no segment never sees what others commit, although
check_latest is set: the reader of an index without segments always counts as up to date. -/
theorem c72_empty_never_refreshed :
    let tr := (run noKey (fresh ⟨[], 0⟩ 1 false true)
      [.read asIs, .otherOpen, .otherCommit ⟨[(5, false)], 1⟩, .otherClose, .read asIs]).2
    shownBy tr = [[], []] ∧ failures tr = [] ∧ ¬ ∃ c', Hist noKey [] tr c' := by
  refine ⟨by decide, by decide, ?_⟩
  rintro ⟨c', h⟩
  obtain ⟨c1, h1, h2⟩ := hist_read_after (tr := (run noKey (fresh ⟨[], 0⟩ 1 false true)
      [.read asIs, .otherOpen, .otherCommit ⟨[(5, false)], 1⟩, .otherClose]).2) (o := []) h
  cases h1 with | cons e1 h1 => cases h1 with | cons e2 h1 => cases h1 with | cons e3 h1 => cases h1 with | cons e4 h1 =>
  cases h1
  have e3 : _ = [5] := e3
  have e4 : c1 = _ := e4
  rw [e3] at e4
  rw [e4] at h2
  cases h2

/-- index_delete_term looks at the open reader without asking whether it is up to date: a document that
another process has added since is not deleted, and there is no exception. -/
theorem c72_stale_delete_lost :
    let tr := (run noKey (fresh ⟨[(1, false)], 1⟩ 1 false true)
      [.read asIs, .otherOpen, .otherCommit ⟨[(1, false), (2, false)], 2⟩, .otherClose,
       .deleteTerm (· == 2) (fun _ => true) asIs, .read asIs]).2
    shownBy tr = [[(0, 1)], [(0, 1), (1, 2)]] ∧ failures tr = [] ∧ ¬ ∃ c', Hist noKey [1] tr c' := by
  refine ⟨by decide, by decide, ?_⟩
  rintro ⟨c', h⟩
  obtain ⟨c1, h1, h2⟩ := hist_read_after (tr := (run noKey (fresh ⟨[(1, false)], 1⟩ 1 false true)
      [.read asIs, .otherOpen, .otherCommit ⟨[(1, false), (2, false)], 2⟩, .otherClose,
       .deleteTerm (· == 2) (fun _ => true) asIs]).2) (o := [(0, 1), (1, 2)]) h
  cases h1 with | cons e1 h1 => cases h1 with | cons e2 h1 => cases h1 with | cons e3 h1 => cases h1 with | cons e4 h1 =>
  cases h1 with | cons e5 h1 =>
  cases h1
  have e3 : _ = [1, 2] := e3
  have e4 : _ = _ := e4
  have e5 : c1 = _ := e5
  rw [e4, e3] at e5
  rw [e5] at h2
  cases h2

/-- If the term occurs in the old reader, index_delete_term raises a state error and deletes nothing. -/
theorem c72_stale_delete_raises :
    let tr := (run noKey (fresh ⟨[(1, false)], 1⟩ 1 false true)
      [.read asIs, .otherOpen, .otherCommit ⟨[(1, false), (2, false)], 2⟩, .otherClose,
       .deleteTerm (· == 1) (fun _ => true) asIs, .read asIs]).2
    shownBy tr = [[(0, 1)], [(0, 1), (1, 2)]] ∧ failures tr = [.state] := by
  exact ⟨by decide, by decide⟩

/-- With auto_flush, index_delete_term leaves the lock taken, so that no other process can write until
the Index does something else. -/
theorem c72_auto_flush_keeps_lock :
    let r := run noKey (fresh ⟨[(1, false)], 1⟩ 1 true true) [.deleteTerm (· == 1) (fun _ => true) asIs, .otherOpen]
    failures r.2 = [.lock] := by
  decide

/-- An Index that is refused the lock removes it: its next index_add_doc succeeds while the other
process is still writing, and the document is lost. -/
theorem c72_refused_add_lost :
    let tr := (run noKey (fresh ⟨[(1, false)], 1⟩ 1 true true)
      [.otherOpen, .add 7 false false asIs, .add 7 false false asIs, .otherCommit ⟨[(1, false), (2, false)], 2⟩, .read asIs]).2
    shownBy tr = [[(0, 1), (1, 2)]] ∧ failures tr = [.lock] := by
  exact ⟨by decide, by decide⟩

#print axioms c72_history_partial
#print axioms c72_flushed_partial
#print axioms c72_empty_never_refreshed
#print axioms c72_stale_delete_lost
#print axioms c72_stale_delete_raises
#print axioms c72_auto_flush_keeps_lock
#print axioms c72_refused_add_lost
end Ferret.Props
