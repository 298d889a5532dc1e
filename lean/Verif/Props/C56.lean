import Verif.Lemmas.QueryEq

/-!
C56 Equal queries hash equally.

Queries of any nesting. Not so: where a negative and a positive zero are compared, where a clause of a SpanFirstQuery, a
SpanNotQuery, … is a SpanOrQuery and its counterpart a SpanNearQuery, and FilteredQuery has neither a hash nor an eq.
-/

namespace Ferret.Props
open Ferret Ferret.Spec Ferret.QEq

/-- Queries that are found equal have the same hash; both in the same memory, with no negative zeros in boosts of terms and
in minimum similarities, and no SpanOrQuery inside a span query of the first where a SpanNearQuery is inside one of the
second. Missing: those. -/
theorem c56_hash_partial (m : Memory) (ra rb : Query → Prop) (hr : ∀ x y, ra x → rb y → orNear x y = false) (a b : Query)
    (ha : Parts m PlainNumbers ra (fun _ => True) a) (hb : Parts m PlainNumbers rb (fun _ => True) b) (h : qEq a b = .ok true) :
    qHash a = qHash b := by
  unfold qEq qEqOf at h
  unfold qHash
  by_cases he : a.hd.addr = b.hd.addr
  · have e1 := parts_at ha
    have e2 := parts_at hb
    rw [he] at e1
    have : a = b := e1.symm.trans e2
    rw [this]
  · rw [if_neg he] at h
    obtain ⟨h1, h2⟩ := andR_true h
    simp only [Bool.and_eq_true, beq_iff_eq] at h1
    rw [eqM_hash m PlainNumbers ra PlainNumbers rb _ _ (fun _ h => h) (fun _ h => h) hr a b ha hb (orNear_type h1.1) h2]
    simp only [qHashOf, h1.1]

/-- Every query without a FilteredQuery in it has a hash. -/
theorem c56_defined (m : Memory) (r : Query → Prop) (k : Filter → Prop) (a : Query)
    (ha : Parts m (fun x => ∀ h q f, x ≠ .filtered h q f) r k a) : ∃ h, qHash a = .ok h := by
  obtain ⟨h, e⟩ := hashM_ok m _ r k (fun _ h => h) a ha
  exact ⟨_, by unfold qHash; rw [e, Res.ok_bind]⟩

/-- A MultiTermQuery with a term boosted 0.0, one boosted -0.0, which a minimum boost of -1.0 lets in. -/
theorem c56_neg_zero :
    qEq (.multi ⟨1, 0x3f800000⟩ [102] [([97], 0)]) (.multi ⟨2, 0x3f800000⟩ [102] [([97], 0x80000000)]) = .ok true ∧
    qHash (.multi ⟨1, 0x3f800000⟩ [102] [([97], 0)]) ≠ qHash (.multi ⟨2, 0x3f800000⟩ [102] [([97], 0x80000000)]) := by
  decide +kernel

/-- The span query for the term `t`. -/
def spanOf (addr : Nat) (t : Byte) : Query := .sTerm ⟨addr, 0x3f800000⟩ [102] [t]

/-- A SpanFirstQuery of a SpanOrQuery, one of a SpanNearQuery with the same clauses. -/
def firstOfOr : Query :=
  .sFirst ⟨1, 0x3f800000⟩ (some [102]) (.sOr ⟨2, 0x3f800000⟩ (some [102]) (.cons (spanOf 3 97) (.cons (spanOf 4 98) .nil))) 5
def firstOfNear : Query :=
  .sFirst ⟨5, 0x3f800000⟩ (some [102]) (.sNear ⟨6, 0x3f800000⟩ (some [102]) (.cons (spanOf 7 97) (.cons (spanOf 8 98) .nil)) 0 true) 5

/-- They are found equal, their hashes differ; the other way round the comparison reads past the end of the SpanOrQuery. -/
theorem c56_or_near : qEq firstOfOr firstOfNear = .ok true ∧ qHash firstOfOr ≠ qHash firstOfNear ∧ qEq firstOfNear firstOfOr = .ub := by
  decide +kernel

/-- No FilteredQuery can be hashed or compared with another: the functions are NULL. -/
theorem c56_filtered_ub (h h' : Hd) (q q' : Query) (f f' : Filter) (hne : h.addr ≠ h'.addr) (hb : F32.eq h.boost h'.boost = true) :
    qHash (.filtered h q f) = .ub ∧ qEq (.filtered h q f) (.filtered h' q' f') = .ub := by
  refine ⟨rfl, ?_⟩
  simp [qEq, qEqOf, Query.hd, hne, hb, Query.type, andR, eqM]

/-- Two boolean queries built separately, one with a span query, meet the hypotheses. -/
def sampleBool (o : Nat) : Query :=
  .bool ⟨o, 0x3f800000⟩ false 1024 (.cons 1 (.term ⟨o + 1, 0x40000000⟩ [102] [97])
    (.cons 2 (.sNear ⟨o + 2, 0x3f800000⟩ (some [102]) (.cons (spanOf (o + 3) 97) (.cons (spanOf (o + 4) 98) .nil)) 0 true)
      (.cons 0 (.const ⟨o + 5, 0x3f800000⟩ (.range o false ⟨[102], some [97], none, true, false⟩)) .nil)))

/-- Where they are. -/
def sampleMemory : Memory where
  query n := match n with
    | 11 => .term ⟨11, 0x40000000⟩ [102] [97]
    | 12 => .sNear ⟨12, 0x3f800000⟩ (some [102]) (.cons (spanOf 13 97) (.cons (spanOf 14 98) .nil)) 0 true
    | 13 => spanOf 13 97
    | 14 => spanOf 14 98
    | 15 => .const ⟨15, 0x3f800000⟩ (.range 10 false ⟨[102], some [97], none, true, false⟩)
    | 21 => .term ⟨21, 0x40000000⟩ [102] [97]
    | 22 => .sNear ⟨22, 0x3f800000⟩ (some [102]) (.cons (spanOf 23 97) (.cons (spanOf 24 98) .nil)) 0 true
    | 23 => spanOf 23 97
    | 24 => spanOf 24 98
    | 25 => .const ⟨25, 0x3f800000⟩ (.range 20 false ⟨[102], some [97], none, true, false⟩)
    | n => sampleBool n
  filter n := .range n false ⟨[102], some [97], none, true, false⟩

theorem sampleParts (p r : Query → Prop) (k : Filter → Prop) (n : Nat) (hn : n = 10 ∨ n = 20)
    (h1 : p (sampleBool n)) (h2 : p (.term ⟨n + 1, 0x40000000⟩ [102] [97]))
    (h3 : p (.sNear ⟨n + 2, 0x3f800000⟩ (some [102]) (.cons (spanOf (n + 3) 97) (.cons (spanOf (n + 4) 98) .nil)) 0 true))
    (h4 : ∀ a t, p (spanOf a t)) (h5 : ∀ a t, r (spanOf a t))
    (h6 : p (.const ⟨n + 5, 0x3f800000⟩ (.range n false ⟨[102], some [97], none, true, false⟩)))
    (h7 : k (.range n false ⟨[102], some [97], none, true, false⟩)) : Parts sampleMemory p r k (sampleBool n) := by
  rcases hn with rfl | rfl <;>
    exact ⟨rfl, h1, ⟨rfl, h2⟩, ⟨rfl, h3, h5 _ _, ⟨rfl, h4 _ _⟩, h5 _ _, ⟨rfl, h4 _ _⟩, trivial⟩, ⟨rfl, h6, rfl, h7⟩, trivial⟩

example : qHash (sampleBool 10) = qHash (sampleBool 20) ∧ qEq (sampleBool 10) (sampleBool 20) = .ok true := by
  have e : qEq (sampleBool 10) (sampleBool 20) = .ok true := by decide +kernel
  refine ⟨c56_hash_partial sampleMemory (fun x => ∃ a t, x = spanOf a t) (fun x => ∃ a t, x = spanOf a t) ?_ _ _ ?_ ?_ e, e⟩
  · rintro x y ⟨a, t, rfl⟩ ⟨b, u, rfl⟩; rfl
  · exact sampleParts _ _ _ 10 (.inl rfl) trivial trivial trivial (fun _ _ => trivial) (fun a t => ⟨a, t, rfl⟩) trivial trivial
  · exact sampleParts _ _ _ 20 (.inr rfl) trivial trivial trivial (fun _ _ => trivial) (fun a t => ⟨a, t, rfl⟩) trivial trivial

example : ∃ h, qHash (sampleBool 10) = .ok h :=
  c56_defined sampleMemory (fun _ => True) (fun _ => True) _
    (sampleParts _ _ _ 10 (.inl rfl) (by intro h q f; simp [sampleBool]) (by intro h q f; simp) (by intro h q f; simp)
      (fun _ _ => by intro h q f; simp [spanOf]) (fun _ _ => trivial) (by intro h q f; simp) trivial)

#print axioms c56_hash_partial
#print axioms c56_defined
#print axioms c56_neg_zero
#print axioms c56_or_near
#print axioms c56_filtered_ub
end Ferret.Props
