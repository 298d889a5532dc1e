import Verif.Lemmas.BitVector
import Verif.Spec.BitVector

/-! C01: a bit vector is a map from index to bit. -/

namespace Ferret.Props
open Ferret.BitVector Ferret.Spec

/-- Perform one client action. -/
def bvAct (bv : BV) : BitAct → Res BV
  | .set i => BitVector.set bv (i : Int)
  | .unset i => BitVector.unset bv (i : Int)
  | .clear => .ok (BitVector.clear bv)

/-- Perform a history. -/
def bvRun (bv : BV) : List BitAct → Res BV
  | [] => .ok bv
  | a :: as => bvAct bv a >>= fun bv' => bvRun bv' as

theorem bvRun_inv (bv : BV) (acts : List BitAct) (f : Nat → Bool)
    (hwf : WF bv) (hext : bv.ext = false) (hc : CountOK bv) (hf : ∀ i, bitAt bv.bits bv.ext i = f i) :
    ∃ bv', bvRun bv acts = .ok bv' ∧ WF bv' ∧ bv'.ext = false ∧ CountOK bv' ∧
      ∀ i, bitAt bv'.bits bv'.ext i = acts.foldl (fun b a => match a with
        | .set j => if j = i then true else b
        | .unset j => if j = i then false else b
        | .clear => false) (f i) := by
  induction acts generalizing bv f with
  | nil => exact ⟨bv, rfl, hwf, hext, hc, hf⟩
  | cons a as ih =>
    cases a with
    | set k =>
      obtain ⟨b1, e1, w1, _, x1, _, _, g1, c1⟩ := setValue_ok bv k true hwf
      have := ih b1 (fun i => if i = k then true else f i) w1 (by rw [x1, hext])
        (countOK_setValue hc hwf hext g1 c1) (by intro i; rw [g1, hf])
      simp only [bvRun, bvAct, BitVector.set, e1, Res.ok_bind, List.foldl_cons]
      simpa only [eq_comm] using this
    | unset k =>
      obtain ⟨b1, e1, w1, _, x1, _, _, g1, c1⟩ := setValue_ok bv k false hwf
      have := ih b1 (fun i => if i = k then false else f i) w1 (by rw [x1, hext])
        (countOK_setValue hc hwf hext g1 c1) (by intro i; rw [g1, hf])
      simp only [bvRun, bvAct, BitVector.unset, e1, Res.ok_bind, List.foldl_cons]
      simpa only [eq_comm] using this
    | clear =>
      have hz : ∀ j, bitAt (clear bv).bits (clear bv).ext j = false := fun j => bitAt_replicate_zero _ _
      have := ih (clear bv) (fun _ => false) (wf_clear bv hwf) rfl (countOK_zero hz rfl) hz
      simpa only [bvRun, bvAct, Res.ok_bind, List.foldl_cons] using this

/-- **C01.** For every initial capacity and every history of set/unset/clear with arbitrary
non-negative indices: the history never leaves the allocated memory (`.ok`, not `.ub`),
every later `get i` is defined and returns the last value written at `i` (0 if none), and
the `count` field is exactly the number of set bits. -/
theorem c01_bitvector_is_a_map (capa : Nat) (acts : List BitAct) :
    ∃ bv, bvRun (newCapa capa) acts = .ok bv ∧
      (∀ i : Nat, BitVector.get bv (i : Int) = .ok (bitAfter acts i)) ∧
      (∀ n, (∀ i, bitAfter acts i = true → i < n) → bv.count = (numTrue (bitAfter acts) n : Nat)) := by
  have hz : ∀ j, bitAt (newCapa capa).bits (newCapa capa).ext j = false := fun j => bitAt_replicate_zero _ _
  obtain ⟨bv, e, w, x, c, g⟩ := bvRun_inv (newCapa capa) acts (fun _ => false) (wf_newCapa capa) rfl
    (countOK_zero hz rfl) hz
  refine ⟨bv, e, ?_, ?_⟩
  · intro i; rw [get_ok bv i w, g i]; rfl
  · intro n hn
    have hb : bitAt bv.bits bv.ext = bitAfter acts := funext g
    rw [c n (by rw [hb]; exact hn), hb]; rfl

/-- The precondition is needed: a negative index is undefined behaviour in every state. -/
theorem c01_negative_index_undefined (bv : BV) (k : Nat) (v : Bool) :
    BitVector.setValue bv (Int.negSucc k) v = .ub ∧ BitVector.get bv (Int.negSucc k) = .ub :=
  ⟨rfl, rfl⟩

/-- Non-vacuity: a history crossing a capacity growth, with re-writes and a clear. -/
example : ∃ bv, bvRun (newCapa 10) [.set 3, .set 700, .unset 3, .clear, .set 1000, .set 31] = .ok bv ∧
    BitVector.get bv 1000 = .ok true ∧ BitVector.get bv 700 = .ok false ∧ bv.count = 2 := by
  refine ⟨_, rfl, ?_, ?_, ?_⟩ <;> decide

#print axioms c01_bitvector_is_a_map

#print axioms c01_negative_index_undefined
end Ferret.Props
