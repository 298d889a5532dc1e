import Verif.Props.C56

/-!
C66 Queries that compare equal ask the same, and queries that ask the same compare equal.

`asks` (Spec/Queries.lean) is the whole query but addresses, limits on expansions, and boosts of clauses of span queries.
-/

namespace Ferret.Props
open Ferret Ferret.Spec Ferret.QEq

/-- Queries that are found equal ask the same; both in the same memory, where no clause of a span query of the first takes
its counterpart for one of its own kind, and no typed range filter meets an untyped one. Missing: those. -/
theorem c66_same_partial (m : Memory) (pa pb ra rb : Query → Prop) (ka kb : Filter → Prop)
    (hr : ∀ x y, ra x → rb y → misread x y = false) (hk : ∀ f g, ka f → kb g → sameRange f g = true) (a b : Query)
    (ha : Parts m pa ra ka a) (hb : Parts m pb rb kb b) (h : qEq a b = .ok true) : asks a = asks b := by
  unfold qEq qEqOf at h
  by_cases he : a.hd.addr = b.hd.addr
  · have e1 := parts_at ha
    have e2 := parts_at hb
    rw [he] at e1
    have : a = b := e1.symm.trans e2
    rw [this]
  · rw [if_neg he] at h
    obtain ⟨h1, h2⟩ := andR_true h
    simp only [Bool.and_eq_true, beq_iff_eq] at h1
    exact asks_of_unboosted h1.1 h1.2 (eqM_asks m pa ra pb rb ka kb hr hk a b ha hb (misread_type h1.1) h2)

/-- Queries that ask the same are found equal, whichever is compared with the other: all queries without NaNs and without
FilteredQueries in them. Missing: those. -/
theorem c66_found_partial (m : Memory) (r : Query → Prop) (k : Filter → Prop) (a b : Query)
    (ha : Parts m (fun x => NumbersOnly x ∧ F32.nan x.hd.boost = false ∧ ∀ h q f, x ≠ .filtered h q f) r k a)
    (hb : Parts m (fun x => NumbersOnly x ∧ F32.nan x.hd.boost = false ∧ ∀ h q f, x ≠ .filtered h q f) r k b)
    (h : asks a = asks b) : qEq a b = .ok true ∧ qEq b a = .ok true := by
  have key : ∀ a b : Query, Parts m (fun x => NumbersOnly x ∧ F32.nan x.hd.boost = false ∧ ∀ h q f, x ≠ .filtered h q f) r k a →
      Parts m (fun x => NumbersOnly x ∧ F32.nan x.hd.boost = false ∧ ∀ h q f, x ≠ .filtered h q f) r k b → asks a = asks b →
      qEq a b = .ok true := by
    intro a b ha hb h
    obtain ⟨t1, t2, t3⟩ := asks_type_boost h
    unfold qEq qEqOf
    split
    · rfl
    · rw [t1, eq_of_number (boost_ok m _ r k (fun _ h => h) ha) (boost_ok m _ r k (fun _ h => h) hb) t2,
        asks_eqM m _ r k (fun _ h => h) a b ha hb t3]
      simp [andR]
  exact ⟨key a b ha hb h, key b a hb ha h.symm⟩

/-- A query compares equal with itself. -/
theorem c66_self (a : Query) : qEq a a = .ok true := by simp [qEq, qEqOf]

/-- A SpanOrQuery of a term equals a SpanOrQuery of all terms with that prefix. -/
theorem c66_term_prefix :
    qEq (.sOr ⟨1, 0⟩ (some [102]) (.cons (.sTerm ⟨2, 0⟩ [102] [97]) .nil)) (.sOr ⟨3, 0⟩ (some [102]) (.cons (.sPfx ⟨4, 0⟩ [102] [97] 256) .nil)) = .ok true ∧
    asks (.sOr ⟨1, 0⟩ (some [102]) (.cons (.sTerm ⟨2, 0⟩ [102] [97]) .nil)) ≠
      asks (.sOr ⟨3, 0⟩ (some [102]) (.cons (.sPfx ⟨4, 0⟩ [102] [97] 256) .nil)) := by
  constructor
  · decide +kernel
  · simp [asks, asksQueries, unboosted]

/-- A SpanFirstQuery of a SpanOrQuery equals one of a SpanNearQuery. -/
theorem c66_or_near : qEq firstOfOr firstOfNear = .ok true ∧ asks firstOfOr ≠ asks firstOfNear := by
  constructor
  · decide +kernel
  · simp [firstOfOr, firstOfNear, asks, asksQueries, unboosted]

/-- A ConstantScoreQuery over a RangeFilter equals one over a TypedRangeFilter with the same bounds: from "2" by bytes leaves
out "10", by number it does not. -/
theorem c66_typed_range (r : Range) :
    qEq (.const ⟨1, 0⟩ (.range 1 false r)) (.const ⟨2, 0⟩ (.range 2 true r)) = .ok true ∧
    asks (.const ⟨1, 0⟩ (.range 1 false r)) ≠ asks (.const ⟨2, 0⟩ (.range 2 true r)) := by
  constructor
  · simp [qEq, qEqOf, Query.hd, Query.type, andR, eqM, filtEq, filtEqOf, Filter.addr, Filter.name, Filter.fn, rangeEq,
      show F32.eq 0 0 = true by decide]
  · simp [asks, asksFilter]

/-- Queries that expand to at most one term and to at most 256 terms are equal. -/
theorem c66_limits (f p : List Byte) (n n' : Int) :
    qEq (.pfx ⟨1, 0⟩ f p n) (.pfx ⟨2, 0⟩ f p n') = .ok true ∧ qEq (.wild ⟨1, 0⟩ f p n) (.wild ⟨2, 0⟩ f p n') = .ok true ∧
    qEq (.fuzzy ⟨1, 0⟩ f p 0 0 n) (.fuzzy ⟨2, 0⟩ f p 0 0 n') = .ok true ∧
    qEq (.bool ⟨1, 0⟩ false n .nil) (.bool ⟨2, 0⟩ false n' .nil) = .ok true := by
  have e : F32.eq 0 0 = true := by decide
  simp [qEq, qEqOf, Query.hd, Query.type, andR, eqM, e, clausesEq]

/-- Comparing a SpanOrQuery of a term with a SpanOrQuery of several terms reads one struct as another. -/
theorem c66_cast_ub :
    qEq (.sOr ⟨1, 0⟩ (some [102]) (.cons (.sTerm ⟨2, 0⟩ [102] [97]) .nil))
      (.sOr ⟨3, 0⟩ (some [102]) (.cons (.sMulti ⟨4, 0⟩ [102] [[97], [98]]) .nil)) = .ub := by
  decide +kernel

example : asks (sampleBool 10) = asks (sampleBool 20) := by
  refine c66_same_partial sampleMemory (fun _ => True) (fun _ => True) (fun x => ∃ a t, x = spanOf a t) (fun x => ∃ a t, x = spanOf a t)
    (fun f => ∃ n r, f = .range n false r) (fun f => ∃ n r, f = .range n false r) ?_ ?_ _ _ ?_ ?_ (by decide +kernel)
  · rintro x y ⟨a, t, rfl⟩ ⟨b, u, rfl⟩; rfl
  · rintro x y ⟨a, t, rfl⟩ ⟨b, u, rfl⟩; rfl
  · exact sampleParts _ _ _ 10 (.inl rfl) trivial trivial trivial (fun _ _ => trivial) (fun a t => ⟨a, t, rfl⟩) trivial ⟨_, _, rfl⟩
  · exact sampleParts _ _ _ 20 (.inr rfl) trivial trivial trivial (fun _ _ => trivial) (fun a t => ⟨a, t, rfl⟩) trivial ⟨_, _, rfl⟩

theorem samplePlain (n : Nat) (hn : n = 10 ∨ n = 20) :
    Parts sampleMemory (fun x => NumbersOnly x ∧ F32.nan x.hd.boost = false ∧ ∀ h q f, x ≠ .filtered h q f) (fun _ => True) (fun _ => True)
      (sampleBool n) := by
  have e1 : F32.nan 0x3f800000 = false := by decide
  have e2 : F32.nan 0x40000000 = false := by decide
  exact sampleParts _ _ _ n hn ⟨trivial, e1, by intro h q f; simp [sampleBool]⟩ ⟨trivial, e2, by intro h q f; simp⟩
    ⟨trivial, e1, by intro h q f; simp⟩ (fun _ _ => ⟨trivial, e1, by intro h q f; simp [spanOf]⟩) (fun _ _ => trivial)
    ⟨trivial, e1, by intro h q f; simp⟩ trivial

example : qEq (sampleBool 10) (sampleBool 20) = .ok true :=
  (c66_found_partial sampleMemory (fun _ => True) (fun _ => True) _ _ (samplePlain 10 (.inl rfl)) (samplePlain 20 (.inr rfl)) rfl).1

#print axioms c66_same_partial
#print axioms c66_found_partial
#print axioms c66_self
#print axioms c66_term_prefix
#print axioms c66_or_near
#print axioms c66_typed_range
#print axioms c66_limits
#print axioms c66_cast_ub
end Ferret.Props
