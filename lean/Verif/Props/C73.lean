import Verif.Props.C72

/-!
C73: in an Index with a key, adding a document replaces the one with the same key: there is never more
than one document with a key.
-/

namespace Ferret.Props
open Ferret Ferret.Spec
open Ferret.Ind (run fresh step)

variable {α K V : Type}

/-- With an exact key, the documents that adding `d` replaces are those with the key of `d`. -/
private theorem matches_exact {k : Key α K V} (hk : ExactKey k) (d x : α) : matchesKey k d x = true ↔ SameKey k d x := by
  have hf : (k.fields.filter fun f => (k.value f d).isSome) = k.fields := List.filter_eq_self.2 fun f hf => hk.value f hf d
  unfold matchesKey
  simp only [hf]
  have he : k.fields.isEmpty = false := by
    cases h : k.fields with
    | nil => exact absurd h hk.some_
    | cons _ _ => rfl
  rw [he]
  simp only [Bool.not_false, Bool.true_and, List.all_eq_true]
  constructor
  · intro h f hf
    have := h f hf
    obtain ⟨v, hv⟩ := Option.isSome_iff_exists.1 (hk.value f hf d)
    rw [hv] at this ⊢
    exact ((hk.has f hf v x).1 this).symm
  · intro h f hf
    obtain ⟨v, hv⟩ := Option.isSome_iff_exists.1 (hk.value f hf d)
    rw [hv]
    exact (hk.has f hf v x).2 ((h f hf).symm.trans hv)

/-- Others commit documents with different keys only. -/
def OthersKeep (k : Key α K V) (ops : List (IndOp α)) : Prop := ∀ c, IndOp.otherCommit c ∈ ops → UniqueKeys k (live c.docs)

private theorem unique_filter {k : Key α K V} {c : List α} (p : α → Bool) (h : UniqueKeys k c) : UniqueKeys k (c.filter p) :=
  List.Pairwise.filter p h

private theorem few {k : Key α K V} (hk : ExactKey k) {c : List α} (d : α) (h : UniqueKeys k c) : ¬ 1 < (c.filter (matchesKey k d)).length := by
  intro hlt
  have hu := unique_filter (matchesKey k d) h
  have hm : ∀ x ∈ c.filter (matchesKey k d), SameKey k d x := fun x hx => (matches_exact hk d x).1 (List.mem_filter.1 hx).2
  match hc : c.filter (matchesKey k d), hlt with
  | a :: b :: l, _ =>
    rw [hc] at hu hm
    have ha := hm a (by simp)
    have hb := hm b (by simp)
    exact (List.pairwise_cons.1 hu).1 b (by simp) fun f hf => (ha f hf).symm.trans (hb f hf)

private theorem hist_unique {k : Key α K V} (hk : ExactKey k) {c c' : List α} {tr : List (IndOp α × Res (List (Nat × α)))}
    (h : Hist (some k) c tr c') (hu : UniqueKeys k c) (ho : OthersKeep k (tr.map (·.1))) :
    UniqueKeys k c' ∧ (∀ x ∈ tr, ∃ o, x.2 = .ok o) ∧ (∀ x ∈ tr, ∀ σ o, x = (.read σ, .ok o) → UniqueKeys k (o.map (·.2))) := by
  induction h with
  | nil => exact ⟨hu, by simp, by simp⟩
  | @cons c c' c'' op r tr e _ ih =>
    have key : UniqueKeys k c' ∧ (∃ o, r = .ok o) ∧ (∀ σ o, (op, r) = (.read σ, .ok o) → UniqueKeys k (o.map (·.2))) := by
      cases r with
      | ub => cases op <;> exact e.elim
      | raise x =>
        cases op with
        | add d full g σ =>
          cases x with
          | arg =>
            obtain ⟨_, k', hk', hlt⟩ := e
            cases hk'
            exact absurd hlt (few hk d hu)
          | _ => exact e.elim
        | _ => exact e.elim
      | ok o =>
        refine ⟨?_, ⟨o, rfl⟩, ?_⟩
        · cases op with
          | add d full g σ =>
            have e : c' = _ := e
            subst e
            refine List.pairwise_append.2 ⟨unique_filter _ hu, List.pairwise_singleton _ _, ?_⟩
            intro a ha b hb hab
            rw [List.mem_singleton] at hb
            subst hb
            have := (List.mem_filter.1 ha).2
            rw [(matches_exact hk b a).2 fun f hf => (hab f hf).symm] at this
            cases this
          | delete n σ =>
            obtain ⟨e1, e2⟩ := e
            subst e2
            rw [← e1] at hu
            exact List.Pairwise.sublist (List.Sublist.map _ List.filter_sublist) hu
          | deleteTerm p kn σ => have e : c' = _ := e; subst e; exact unique_filter _ hu
          | deleteQuery p σ => have e : c' = _ := e; subst e; exact unique_filter _ hu
          | otherCommit x => have e : c' = _ := e; subst e; exact ho x (by simp)
          | read σ => have e : c' = _ := e.2; subst e; exact hu
          | optimize mg σ => have e : c' = _ := e; subst e; exact hu
          | flush σ => have e : c' = _ := e; subst e; exact hu
          | otherOpen => have e : c' = _ := e; subst e; exact hu
          | otherClose => have e : c' = _ := e; subst e; exact hu
        · intro σ o' e'
          cases e'
          rw [e.1]; exact hu
    obtain ⟨k1, k2, k3⟩ := key
    obtain ⟨h1, h2, h3⟩ := ih k1 (fun x hx => ho x (.tail _ hx))
    refine ⟨h1, ?_, ?_⟩
    · intro x hx
      rcases List.mem_cons.1 hx with rfl | hx
      · exact k2
      · exact h2 x hx
    · intro x hx
      rcases List.mem_cons.1 hx with rfl | hx
      · exact k3
      · exact h3 x hx

private theorem run_calls {key : Option (Key α K V)} (ops : List (IndOp α)) (s : Ind.Ix α) : (run key s ops).2.map (·.1) = ops := by
  induction ops generalizing s with
  | nil => rfl
  | cons op ops ih => simp [run, ih]

/-- If the index has no two documents with the same key at the start, and others commit none, then every
read shows documents with different keys, and no call fails, in every history in which no lock was
refused, for keys whose fields are untokenized, have one value and are in every document. -/
theorem c73_unique_partial (k : Key α K V) (hk : ExactKey k) (c : Com α) (hc : UniqueKeys k (live c.docs)) (v : Nat)
    (autoFlush checkLatest : Bool) (ops : List (IndOp α)) (hs : ∀ op ∈ ops, op.Sound) (ha : Allowed c checkLatest ops)
    (ho : OthersKeep k ops)
    (hl : ∀ x ∈ (run (some k) (fresh c v autoFlush checkLatest) ops).2, x.2 ≠ .raise .lock) :
    (∀ x ∈ (run (some k) (fresh c v autoFlush checkLatest) ops).2, ∃ o, x.2 = .ok o) ∧
    (∀ σ o, (.read σ, .ok o) ∈ (run (some k) (fresh c v autoFlush checkLatest) ops).2 → UniqueKeys k (o.map (·.2))) := by
  obtain ⟨c', h⟩ := c72_history_partial (some k) c v autoFlush checkLatest ops hs ha hl
  obtain ⟨_, h2, h3⟩ := hist_unique hk h hc (by rw [run_calls]; exact ho)
  exact ⟨h2, fun σ o hx => h3 _ hx σ o rfl⟩

/-- The document that was added last with a key is the one that a read right after shows for the key, at
the end of the contents, and it is the only one. -/
theorem c73_replaced_partial (k : Key α K V) (hk : ExactKey k) (c : Com α) (v : Nat) (autoFlush checkLatest : Bool)
    (ops : List (IndOp α)) (d : α) (full grab : Bool) (σ σ' : Com α → Com α) (o : List (Nat × α))
    (hs : ∀ op ∈ ops ++ [.add d full grab σ, .read σ'], op.Sound) (ha : Allowed c checkLatest (ops ++ [.add d full grab σ, .read σ']))
    (hl : ∀ x ∈ (run (some k) (fresh c v autoFlush checkLatest) (ops ++ [.add d full grab σ, .read σ'])).2, x.2 ≠ .raise .lock)
    (pre : List (IndOp α × Res (List (Nat × α)))) (x : List (Nat × α))
    (hr : (run (some k) (fresh c v autoFlush checkLatest) (ops ++ [.add d full grab σ, .read σ'])).2 =
      pre ++ [(.add d full grab σ, .ok x), (.read σ', .ok o)]) :
    ∃ l, o.map (·.2) = l ++ [d] ∧ ∀ y ∈ l, ¬ SameKey k d y := by
  obtain ⟨c', h⟩ := c72_history_partial (some k) c v autoFlush checkLatest _ hs ha hl
  rw [hr] at h
  clear hr hl ha hs
  generalize live c.docs = c0 at h
  induction pre generalizing c0 with
  | nil =>
    cases h with
    | cons e h =>
      cases h with
      | cons e2 h =>
        have e : _ = _ := e
        refine ⟨_, e2.1.trans e, ?_⟩
        intro y hy hyd
        have := (List.mem_filter.1 hy).2
        rw [(matches_exact hk d y).2 hyd] at this
        cases this
  | cons y pre ih =>
    cases h with
    | cons _ h => exact ih _ h

/-! ### Witnesses -/

/-- Documents are pairs of optional values; both are key fields, or the first only. -/
abbrev twoFields : Key (Option Nat × Option Nat) Bool Nat :=
  { fields := [false, true], value := fun f d => if f then d.2 else d.1, has := fun f v d => (if f then d.2 else d.1) == some v }

abbrev oneField : Key (Nat × Nat) Unit Nat :=
  { fields := [()], value := fun _ d => some d.1, has := fun _ v d => d.1 == v }

theorem oneField_exact : ExactKey oneField :=
  ⟨by decide, fun _ _ _ => rfl, fun _ _ v x => by simp [oneField]⟩

def keyedCalls : List (IndOp (Nat × Nat)) :=
  [.add (1, 10) false false id, .add (2, 20) true false id, .read id, .add (1, 11) false false id, .read id]

example : (∀ op ∈ keyedCalls, op.Sound) ∧ Allowed ⟨[], 0⟩ true keyedCalls ∧ OthersKeep oneField keyedCalls ∧
    UniqueKeys oneField (live ([] : List ((Nat × Nat) × Bool))) ∧
    shownBy (run (some oneField) (fresh ⟨[], 0⟩ 1 true true) keyedCalls).2 =
      [[(0, (1, 10)), (1, (2, 20))], [(1, (2, 20)), (2, (1, 11))]] ∧
    failures (run (some oneField) (fresh ⟨[], 0⟩ 1 true true) keyedCalls).2 = [] := by
  refine ⟨?_, .inl ?_, ?_, .nil, by decide, by decide⟩
  · intro op h
    have ht : Tidy (id : Com (Nat × Nat) → Com (Nat × Nat)) := ⟨fun _ => rfl, fun _ h => h⟩
    simp only [keyedCalls, List.mem_cons, List.not_mem_nil, or_false] at h
    rcases h with rfl | rfl | rfl | rfl | rfl <;> exact ht
  · intro c h; simp [keyedCalls] at h
  · intro c h; simp [keyedCalls] at h

/-- A document that lacks one of two key fields replaces a document that has it. -/
theorem c73_missing_field_replaces :
    shownBy (run (some twoFields) (fresh ⟨[((some 1, some 5), false)], 1⟩ 1 true true)
      [.add (some 1, none) false false id, .read id]).2 = [[(1, (some 1, none))]] ∧
    ¬ SameKey twoFields (some 1, none) (some 1, some 5) := by
  refine ⟨by decide, ?_⟩
  intro h
  have := h true (by simp)
  simp [twoFields] at this

/-- A document that lacks the only key field is added each time. -/
theorem c73_no_field_adds :
    shownBy (run (some { twoFields with fields := [false] }) (fresh ⟨[], 0⟩ 1 true true)
      [.add (none, some 1) false false id, .add (none, some 2) false false id, .read id]).2 =
      [[(0, (none, some 1)), (1, (none, some 2))]] := by
  decide

/-- With a key of two fields, another process that opens a writer at the wrong moment makes
index_add_doc fail after the old document was deleted: neither is in the index then. -/
theorem c73_race_loses_both :
    shownBy (run (some twoFields) (fresh ⟨[((some 1, some 5), false)], 1⟩ 1 true true)
      [.add (some 1, some 5) false true id, .read id]).2 = [[]] ∧
    failures (run (some twoFields) (fresh ⟨[((some 1, some 5), false)], 1⟩ 1 true true)
      [.add (some 1, some 5) false true id, .read id]).2 = [.lock] := by
  exact ⟨by decide, by decide⟩

#print axioms c73_unique_partial
#print axioms c73_replaced_partial
#print axioms c73_missing_field_replaces
#print axioms c73_no_field_adds
#print axioms c73_race_loses_both
end Ferret.Props
