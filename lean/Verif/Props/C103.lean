import Verif.Lemmas.CacheObj

/-!
C103: what a filter computed for a reader is kept while both are there, given again when asked for, freed exactly once
when one of them goes, and never given for another filter or reader that happens to have the same address.
-/

namespace Ferret.Props
open Ferret Ferret.Spec Ferret.CacheObj

variable {V : Type}

/-- Whatever filters and readers are made, asked and destroyed, in whatever order and at whatever addresses: nothing
freed is used, every answer is what is kept (or computed, if nothing is), and what was freed is exactly, as often as it
was kept, what is no longer kept. What is in memory is what is kept. -/
theorem c103_kept_while_both_there_partial (ops : List (CacheOp V)) (m : Memo V) (outs : List (Option V)) (gone : List V)
    (h : memoRun {} ops = some (m, outs, gone)) :
    ∃ st, run {} ops = .ok (st, outs) ∧ st.freed.Perm gone ∧ ∀ c o, st.heap c = some o → (o.f, o.r, o.obj) ∈ m.kept := by
  obtain ⟨st, M, h1, h2, h3, h4⟩ := CacheObj.run_inv ops (st := {}) (m := {}) (M := []) inv_empty rfl h
  refine ⟨st, h1, by rw [h4]; exact List.Perm.refl _, ?_⟩
  intro c o ho
  rw [h3]
  exact List.mem_map.2 ⟨_, (h2.heap c o).1 ho, rfl⟩

/-- When all filters or all readers are gone, nothing is left in memory. -/
theorem c103_nothing_left_partial (ops : List (CacheOp V)) (m : Memo V) (outs : List (Option V)) (gone : List V)
    (h : memoRun {} ops = some (m, outs, gone)) (hnone : m.fs = [] ∨ m.rs = []) :
    ∃ st, run {} ops = .ok (st, outs) ∧ ∀ c, st.heap c = none := by
  obtain ⟨st, M, h1, h2, h3, h4⟩ := CacheObj.run_inv ops (st := {}) (m := {}) (M := []) inv_empty rfl h
  refine ⟨st, h1, fun c => ?_⟩
  cases hc : st.heap c with
  | none => rfl
  | some o =>
    have := h2.alive _ ((h2.heap c o).1 hc)
    rcases hnone with hn | hn <;> rw [hn] at this
    · cases this.1
    · cases this.2

theorem memoRun_append : ∀ (xs ys : List (CacheOp V)) (m : Memo V),
    memoRun m (xs ++ ys) = (memoRun m xs).bind fun x => (memoRun x.1 ys).map fun y => (y.1, x.2.1 ++ y.2.1, x.2.2 ++ y.2.2) := by
  intro xs
  induction xs with
  | nil => intro ys m; simp [memoRun]
  | cons op xs ih =>
    intro ys m
    rw [List.cons_append, memoRun, memoRun]
    cases memoStep m op with
    | none => rfl
    | some x =>
      simp only [Option.bind_some]
      rw [ih]
      cases memoRun x.1 xs with
      | none => rfl
      | some y =>
        simp only [Option.bind_some, Option.map_some]
        cases memoRun y.1 ys with
        | none => rfl
        | some z => simp

/-- A filter made where another one was computes anew, whatever was kept for the other one; so for a reader. -/
theorem c103_address_used_again_partial (ops : List (CacheOp V)) (m : Memo V) (outs : List (Option V)) (gone : List V) (f r : Nat) (v : V)
    (h : memoRun {} ops = some (m, outs, gone)) (hf : f ∈ m.fs) (hr : r ∈ m.rs) :
    (∃ st, run {} (ops ++ [.delF f, .newF f, .get f r v]) = .ok (st, outs ++ [none, none, some v])) ∧
    (∃ st, run {} (ops ++ [.delR r, .newR r, .get f r v]) = .ok (st, outs ++ [none, none, some v])) := by
  constructor
  · have e : memoRun {} (ops ++ [.delF f, .newF f, .get f r v]) = some
        ({ m with fs := f :: m.fs.filter (fun x => decide (x ≠ f)), kept := m.kept.filter (fun x => decide (x.1 ≠ f)) ++ [(f, r, v)] }, outs ++ [none, none, some v], gone ++ ((m.kept.filter (fun x => decide (x.1 = f))).map (·.2.2) ++ ([] ++ ([] ++ [])))) := by
      rw [memoRun_append, h, Option.bind_some]
      have hfd : (m.kept.filter (fun x => decide (x.1 ≠ f))).find? (fun x => decide (x.1 = f ∧ x.2.1 = r)) = none := by
        apply List.find?_eq_none.2
        intro x hx
        have := (List.mem_filter.1 hx).2
        simp only [decide_eq_true_eq] at this ⊢
        exact fun hn => this hn.1
      have s1 : memoStep m (.delF f) = some ({ m with fs := m.fs.filter (fun x => decide (x ≠ f)), kept := m.kept.filter (fun x => decide (x.1 ≠ f)) }, none, (m.kept.filter (fun x => decide (x.1 = f))).map (·.2.2)) := if_pos hf
      rw [memoRun, s1, Option.bind_some, memoRun]
      have s2 : memoStep { m with fs := m.fs.filter (fun x => decide (x ≠ f)), kept := m.kept.filter (fun x => decide (x.1 ≠ f)) } (.newF f) =
          some ({ m with fs := f :: m.fs.filter (fun x => decide (x ≠ f)), kept := m.kept.filter (fun x => decide (x.1 ≠ f)) }, none, []) := if_neg (by simp)
      rw [s2, Option.bind_some, memoRun]
      have s3 : memoStep { m with fs := f :: m.fs.filter (fun x => decide (x ≠ f)), kept := m.kept.filter (fun x => decide (x.1 ≠ f)) } (.get f r v) =
          some ({ m with fs := f :: m.fs.filter (fun x => decide (x ≠ f)), kept := m.kept.filter (fun x => decide (x.1 ≠ f)) ++ [(f, r, v)] }, some v, []) := by
        unfold memoStep
        dsimp only
        rw [if_pos ⟨List.mem_cons_self, hr⟩, hfd]
      rw [s3, Option.bind_some, memoRun]
      rfl
    obtain ⟨st, h1, -⟩ := c103_kept_while_both_there_partial _ _ _ _ e
    exact ⟨st, h1⟩
  · have e : memoRun {} (ops ++ [.delR r, .newR r, .get f r v]) = some
        ({ m with rs := r :: m.rs.filter (fun x => decide (x ≠ r)), kept := m.kept.filter (fun x => decide (x.2.1 ≠ r)) ++ [(f, r, v)] }, outs ++ [none, none, some v], gone ++ ((m.kept.filter (fun x => decide (x.2.1 = r))).map (·.2.2) ++ ([] ++ ([] ++ [])))) := by
      rw [memoRun_append, h, Option.bind_some]
      have hfd : (m.kept.filter (fun x => decide (x.2.1 ≠ r))).find? (fun x => decide (x.1 = f ∧ x.2.1 = r)) = none := by
        apply List.find?_eq_none.2
        intro x hx
        have := (List.mem_filter.1 hx).2
        simp only [decide_eq_true_eq] at this ⊢
        exact fun hn => this hn.2
      have s1 : memoStep m (.delR r) = some ({ m with rs := m.rs.filter (fun x => decide (x ≠ r)), kept := m.kept.filter (fun x => decide (x.2.1 ≠ r)) }, none, (m.kept.filter (fun x => decide (x.2.1 = r))).map (·.2.2)) := if_pos hr
      rw [memoRun, s1, Option.bind_some, memoRun]
      have s2 : memoStep { m with rs := m.rs.filter (fun x => decide (x ≠ r)), kept := m.kept.filter (fun x => decide (x.2.1 ≠ r)) } (.newR r) =
          some ({ m with rs := r :: m.rs.filter (fun x => decide (x ≠ r)), kept := m.kept.filter (fun x => decide (x.2.1 ≠ r)) }, none, []) := if_neg (by simp)
      rw [s2, Option.bind_some, memoRun]
      have s3 : memoStep { m with rs := r :: m.rs.filter (fun x => decide (x ≠ r)), kept := m.kept.filter (fun x => decide (x.2.1 ≠ r)) } (.get f r v) =
          some ({ m with rs := r :: m.rs.filter (fun x => decide (x ≠ r)), kept := m.kept.filter (fun x => decide (x.2.1 ≠ r)) ++ [(f, r, v)] }, some v, []) := by
        unfold memoStep
        dsimp only
        rw [if_pos ⟨hf, List.mem_cons_self⟩, hfd]
      rw [s3, Option.bind_some, memoRun]
      rfl
    obtain ⟨st, h1, -⟩ := c103_kept_while_both_there_partial _ _ _ _ e
    exact ⟨st, h1⟩

/-- Two filters and two readers; a filter goes, another one takes its address; then the readers go. -/
def c103Ops : List (CacheOp Nat) :=
  [.newF 1, .newF 2, .newR 7, .newR 8, .get 1 7 10, .get 2 7 20, .get 1 8 30, .get 1 7 99, .delF 1, .newF 1, .get 1 7 40, .get 2 7 99, .delR 7, .delR 8]

example : (memoRun {} c103Ops).map (fun x => (x.1.fs, x.1.rs, x.1.kept, x.2.1, x.2.2)) =
    some ([1, 2], [], [], [none, none, none, none, some 10, some 20, some 30, some 10, none, none, some 40, some 20, none, none], [10, 30, 20, 40]) := rfl
example : (run {} c103Ops >>= fun x => .ok (x.2, x.1.freed)) =
    .ok ([none, none, none, none, some 10, some 20, some 30, some 10, none, none, some 40, some 20, none, none], [10, 30, 20, 40]) := by decide +kernel

/-- Two threads ask the same filter about the same reader, both find nothing kept, and both put what they computed: the
second one frees what the first one was given and is using. What the second one put is kept, under both, and freed once. Nothing locks the tables. -/
theorem c103_threads_free_answer :
    (run {} [.newF 1, .newR 7] >>= fun x => addCache (x.1 : St Nat) 7 >>= fun st => coCreate st 1 7 10 >>= fun st1 => coCreate st1 1 7 20 >>= fun st2 =>
      getBv st2 1 7 30 >>= fun x => delReader x.1 7 >>= fun st3 => .ok (st1.freed, st2.freed, x.2, st3.freed)) = .ok ([], [10], 20, [10, 20]) := by decide +kernel

#print axioms c103_kept_while_both_there_partial
#print axioms c103_nothing_left_partial
#print axioms c103_address_used_again_partial
#print axioms c103_threads_free_answer
end Ferret.Props
