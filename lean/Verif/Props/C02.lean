import Verif.Props.C01
import Verif.Lemmas.BitVectorOps
import Verif.Lemmas.BitVectorStrong

/-! C02: and/or/xor/not are pointwise at every index. -/

namespace Ferret.Props
open Ferret.BitVector Ferret.Spec

/-- Build the vector described by an expression with the library calls. -/
def bvEval : BitExpr → Res BV
  | .hist acts => bvRun BitVector.new acts
  | .and a b => bvEval a >>= fun x => bvEval b >>= fun y => BitVector.op .and x y
  | .or a b => bvEval a >>= fun x => bvEval b >>= fun y => BitVector.op .or x y
  | .xor a b => bvEval a >>= fun x => bvEval b >>= fun y => BitVector.op .xor x y
  | .not a => bvEval a >>= fun x => BitVector.not x

theorem bvEval_spec (e : BitExpr) :
    ∃ bv, bvEval e = .ok bv ∧ WFw bv ∧ bv.ext = e.tail ∧ ∀ i, lg bv i = e.bit i := by
  induction e with
  | hist acts =>
    have hz : ∀ j, bitAt BitVector.new.bits BitVector.new.ext j = false := fun j => bitAt_replicate_zero _ _
    obtain ⟨bv, e, w, x, c, g⟩ := bvRun_inv BitVector.new acts (fun _ => false) (wf_newCapa _) rfl
      (countOK_zero hz rfl) hz
    exact ⟨bv, e, w.weak, x, fun i => by rw [w.lg_eq, g]; rfl⟩
  | and a b iha ihb =>
    obtain ⟨x, e1, w1, x1, g1⟩ := iha
    obtain ⟨y, e2, w2, x2, g2⟩ := ihb
    obtain ⟨r, e3, w3, x3, _, g3, _⟩ := opInto_ok .and BitVector.new x y w1 w2
    refine ⟨r, by simp only [bvEval, e1, e2, Res.ok_bind]; exact e3, w3, by rw [x3, x1, x2]; rfl, ?_⟩
    intro i; rw [g3, g1, g2]; rfl
  | or a b iha ihb =>
    obtain ⟨x, e1, w1, x1, g1⟩ := iha
    obtain ⟨y, e2, w2, x2, g2⟩ := ihb
    obtain ⟨r, e3, w3, x3, _, g3, _⟩ := opInto_ok .or BitVector.new x y w1 w2
    refine ⟨r, by simp only [bvEval, e1, e2, Res.ok_bind]; exact e3, w3, by rw [x3, x1, x2]; rfl, ?_⟩
    intro i; rw [g3, g1, g2]; rfl
  | xor a b iha ihb =>
    obtain ⟨x, e1, w1, x1, g1⟩ := iha
    obtain ⟨y, e2, w2, x2, g2⟩ := ihb
    obtain ⟨r, e3, w3, x3, _, g3, _⟩ := opInto_ok .xor BitVector.new x y w1 w2
    refine ⟨r, by simp only [bvEval, e1, e2, Res.ok_bind]; exact e3, w3, by rw [x3, x1, x2]; rfl, ?_⟩
    intro i; rw [g3, g1, g2]; rfl
  | not a iha =>
    obtain ⟨x, e1, w1, x1, g1⟩ := iha
    obtain ⟨r, e3, w3, x3, _, g3⟩ := notInto_ok BitVector.new x w1
    refine ⟨r, by simp only [bvEval, e1, Res.ok_bind]; exact e3, w3.weak, by rw [x3, x1]; rfl, ?_⟩
    intro i; rw [g3, g1]; rfl

/-- **C02.** Every boolean combination of histories is built without leaving allocated memory
and reads, at every index, as the boolean combination of the operands. -/
theorem c02_algebra_is_pointwise (e : BitExpr) :
    ∃ bv, bvEval e = .ok bv ∧ ∀ i : Nat, BitVector.get bv (i : Int) = .ok (e.bit i) := by
  obtain ⟨bv, h, w, _, g⟩ := bvEval_spec e
  exact ⟨bv, h, fun i => by rw [w.get_ok, g]⟩

/-- Vectors whose tail is zeros satisfy the strong invariant. -/
theorem bvEval_strong (e : BitExpr) (ht : e.tail = false) :
    ∃ bv, bvEval e = .ok bv ∧ WF bv ∧ CountOK bv ∧ bv.ext = false ∧ ∀ i, lg bv i = e.bit i := by
  have key : ∀ (o : Op) (a b : BitExpr) , o.bool a.tail b.tail = false →
      ∃ bv, (bvEval a >>= fun x => bvEval b >>= fun y => BitVector.op o x y) = .ok bv ∧ WF bv ∧ CountOK bv ∧ bv.ext = false ∧
        ∀ i, lg bv i = o.bool (a.bit i) (b.bit i) := by
    intro o a b hab
    obtain ⟨x, e1, w1, x1, g1⟩ := bvEval_spec a
    obtain ⟨y, e2, w2, x2, g2⟩ := bvEval_spec b
    obtain ⟨r, e3, w3, c3, x3, _, g3⟩ := op_strong o x y w1 w2 (by rw [x1, x2]; exact hab)
    exact ⟨r, by simp only [e1, e2, Res.ok_bind]; exact e3, w3, c3, x3, fun i => by rw [g3, g1, g2]⟩
  cases e with
  | hist acts =>
    have hz : ∀ j, bitAt BitVector.new.bits BitVector.new.ext j = false := fun j => bitAt_replicate_zero _ _
    obtain ⟨bv, e, w, x, c, g⟩ := bvRun_inv BitVector.new acts (fun _ => false) (wf_newCapa _) rfl
      (countOK_zero hz rfl) hz
    exact ⟨bv, e, w, c, x, fun i => by rw [w.lg_eq, g]; rfl⟩
  | and a b => exact key .and a b ht
  | or a b => exact key .or a b ht
  | xor a b => exact key .xor a b ht
  | not a =>
    obtain ⟨x, e1, w1, x1, g1⟩ := bvEval_spec a
    obtain ⟨r, e3, w3, c3, x3, g3⟩ := not_strong x w1 (by rw [x1]; simpa [BitExpr.tail] using ht)
    exact ⟨r, by simp only [bvEval, e1, Res.ok_bind]; exact e3, w3, c3, x3, fun i => by rw [g3, g1]; rfl⟩

/-- The bit at `i` after a history applied to a vector already holding `f`. -/
def bitAfterFrom (f : Nat → Bool) (acts : List BitAct) (i : Nat) : Bool :=
  acts.foldl (fun b a => match a with
    | .set j => if j = i then true else b
    | .unset j => if j = i then false else b
    | .clear => false) (f i)

/-- A combination with a zero tail is again a map: any further history applied to it behaves
as in C01, starting from the combined bits, and the count stays exact. -/
theorem c02_zero_tail_results_are_maps_partial (e : BitExpr) (ht : e.tail = false) (acts : List BitAct) :
    ∃ bv, (bvEval e >>= fun x => bvRun x acts) = .ok bv ∧
      (∀ i : Nat, BitVector.get bv (i : Int) = .ok (bitAfterFrom e.bit acts i)) ∧
      (∀ n, (∀ i, bitAfterFrom e.bit acts i = true → i < n) →
        bv.count = (numTrue (bitAfterFrom e.bit acts) n : Nat)) := by
  obtain ⟨x, h, w, c, hx, g⟩ := bvEval_strong e ht
  obtain ⟨bv, e', w', x', c', g'⟩ := bvRun_inv x acts e.bit w hx c (fun i => by rw [← w.lg_eq]; exact g i)
  refine ⟨bv, by rw [h, Res.ok_bind]; exact e', ?_, ?_⟩
  · intro i; rw [get_ok bv i w', g' i]; rfl
  · intro n hn
    have hb : bitAt bv.bits bv.ext = bitAfterFrom e.bit acts := funext g'
    rw [c' n (by rw [hb]; exact hn), hb]; rfl

/-- The boolean operation a client expects. -/
def opBool : Op → Bool → Bool → Bool
  | .and => (· && ·)
  | .or => (· || ·)
  | .xor => Bool.xor

/-- In-place operations (`and_x`, `or_x`, `xor_x`): pointwise when the destination's tail is
not changed by the operation or the destination is at least as long as the other operand.
Missing for the full statement: the remaining case, which is false (next theorem). -/
theorem c02_in_place_partial (o : Op) (ea eb : BitExpr) :
    ∃ a b, bvEval ea = .ok a ∧ bvEval eb = .ok b ∧
      (opBool o ea.tail eb.tail = ea.tail ∨ b.size ≤ a.size →
        ∃ r, opInPlace o a b = .ok r ∧
          ∀ i : Nat, BitVector.get r (i : Int) = .ok (opBool o (ea.bit i) (eb.bit i))) := by
  obtain ⟨a, e1, w1, x1, g1⟩ := bvEval_spec ea
  obtain ⟨b, e2, w2, x2, g2⟩ := bvEval_spec eb
  refine ⟨a, b, e1, e2, fun hs => ?_⟩
  have hob : ∀ x y, opBool o x y = o.bool x y := by intro x y; cases o <;> rfl
  obtain ⟨r, h, w, _, _, g⟩ := opInPlace_ok o a b w1 w2 (by
    rcases hs with hs | hs
    · left; rw [x1, x2, ← hob]; exact hs
    · right; exact toWord_mono hs)
  exact ⟨r, h, fun i => by rw [w.get_ok, g, g1, g2, hob]⟩

/-- In-place negation is pointwise for every vector. -/
theorem c02_in_place_not (e : BitExpr) :
    ∃ r, (bvEval e >>= notInPlace) = .ok r ∧ ∀ i : Nat, BitVector.get r (i : Int) = .ok (!e.bit i) := by
  obtain ⟨a, e1, w1, x1, g1⟩ := bvEval_spec e
  obtain ⟨r, h, w, _, _, g⟩ := notInPlace_ok a w1
  exact ⟨r, by rw [e1, Res.ok_bind]; exact h, fun i => by rw [w.weak.get_ok, g, g1]⟩

/-- **Violation.** `and_x` of a short all-ones vector with a longer vector loses the longer
vector's bits: `not {}` and `{40}` should give `{40}`, but bit 40 reads 0. -/
theorem c02_violated_in_place :
    ∃ a b r, bvEval (.not (.hist [])) = .ok a ∧ bvEval (.hist [.set 40]) = .ok b ∧
      opInPlace .and a b = .ok r ∧
      ((BitExpr.not (.hist [])).bit 40 && (BitExpr.hist [.set 40]).bit 40) = true ∧
      BitVector.get r 40 = .ok false :=
  ⟨_, _, _, rfl, rfl, rfl, by decide, by decide⟩

/-- **Violation.** A combination whose tail is ones forgets its tail once a far bit is
written: `not{} or not{}` is all ones, but after `set 100` bit 50 reads 0. -/
theorem c02_violated_mutate_ones_tail :
    ∃ x r, bvEval (.or (.not (.hist [])) (.not (.hist []))) = .ok x ∧ bvRun x [.set 100] = .ok r ∧
      (BitExpr.or (.not (.hist [])) (.not (.hist []))).bit 50 = true ∧
      BitVector.get x 50 = .ok true ∧ BitVector.get r 50 = .ok false :=
  ⟨_, _, rfl, rfl, by decide, by decide, by decide⟩

/-- **Violation.** The count of a combination with a ones tail (number of zeros) is off by
eight: `not {31} or not {31}` has exactly one zero, the count says 9. -/
theorem c02_violated_count_ones_tail :
    ∃ x, bvEval (.or (.not (.hist [.set 31])) (.not (.hist [.set 31]))) = .ok x ∧
      (∀ i : Nat, BitVector.get x (i : Int) = .ok (decide (i ≠ 31))) ∧ x.count = 9 := by
  obtain ⟨bv, h, g⟩ := c02_algebra_is_pointwise (.or (.not (.hist [.set 31])) (.not (.hist [.set 31])))
  refine ⟨bv, h, ?_, ?_⟩
  · intro i; rw [g i]; simp [BitExpr.bit, bitAfter, eq_comm]
  · have h2 : ∃ x, bvEval (.or (.not (.hist [.set 31])) (.not (.hist [.set 31]))) = .ok x ∧ x.count = 9 :=
      ⟨_, rfl, by decide⟩
    obtain ⟨x, hx, hc⟩ := h2
    rw [h] at hx; injection hx with hx; rw [hx]; exact hc

/-- Non-vacuity: mixed sizes and tails. -/
example : ∃ bv, bvEval (.and (.not (.hist [.set 3])) (.hist [.set 3, .set 700])) = .ok bv ∧
    BitVector.get bv 700 = .ok true ∧ BitVector.get bv 3 = .ok false ∧ bv.count = 1 :=
  ⟨_, rfl, by decide, by decide, by decide⟩

example : (BitExpr.and (.not (.hist [.set 3])) (.hist [.set 3, .set 700])).tail = false := by decide

#print axioms c02_algebra_is_pointwise
#print axioms c02_zero_tail_results_are_maps_partial
#print axioms c02_in_place_partial
#print axioms c02_violated_count_ones_tail

#print axioms c02_in_place_not
#print axioms c02_violated_in_place
#print axioms c02_violated_mutate_ones_tail
end Ferret.Props
