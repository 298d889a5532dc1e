import Verif.Props.C02
import Verif.Lemmas.BitVectorScan

/-! C04: scanning enumerates exactly the set bits. -/

namespace Ferret.Props
open Ferret.BitVector Ferret.Spec

/-- `ScanRun bv l`: calling scan_next on `bv` until it answers -1 yields the answers `l`. -/
inductive ScanRun : BV → List Int → Prop
  | done {bv bv'} : scanNext bv = .ok (-1, bv') → ScanRun bv []
  | step {bv bv' l} {j : Nat} : scanNext bv = .ok ((j : Int), bv') → ScanRun bv' l → ScanRun bv ((j : Int) :: l)

theorem scanRun_range (n : Nat) : ∀ (m i : Nat) (bv : BV), n - i = m → i ≤ n → WFw bv → bv.ext = false →
    bv.size < 32 * bv.bits.length → (∀ k, lg bv k = true → k < n) → bv.currBit + 1 = (i : Int) → i ≤ bv.size →
    ScanRun bv (((List.range' i (n - i)).filter (lg bv)).map Int.ofNat) := by
  intro m
  induction m using Nat.strongRecOn with
  | ind m ih =>
    intro i bv hm hin hw he hsz hn hc his
    rcases scanNextFrom_spec bv i hw (by omega) he with ⟨j, h1, h2, h3, h4, h5⟩ | ⟨h1, h2⟩
    · have hj := hn j h4
      have hsplit : List.range' i (n - i) = List.range' i (j - i) ++ j :: List.range' (j + 1) (n - (j + 1)) := by
        rw [show n - i = (j - i) + ((n - (j + 1)) + 1) by omega, ← List.range'_append_1, List.range'_succ]
        rw [show i + (j - i) = j by omega]
      have hnil : (List.range' i (j - i)).filter (lg bv) = [] := by
        rw [List.filter_eq_nil_iff]
        intro k hk
        rw [List.mem_range'_1] at hk
        rw [h5 k (by omega) (by omega)]; simp
      rw [hsplit, List.filter_append, hnil, List.nil_append, List.filter_cons_of_pos h4, List.map_cons]
      refine ScanRun.step (bv' := { bv with currBit := (j : Int) }) (by unfold scanNext; rw [hc]; exact h1) ?_
      exact ih (n - (j + 1)) (by omega) (j + 1) { bv with currBit := (j : Int) } rfl (by omega) ⟨hw.size_le, hw.tail⟩ he hsz hn
        (by simp) (by simp only []; omega)
    · have : (List.range' i (n - i)).filter (lg bv) = [] := by
        rw [List.filter_eq_nil_iff]
        intro k hk
        rw [List.mem_range'_1] at hk
        rw [h2 k (by omega)]; simp
      rw [this]
      exact ScanRun.done (bv' := bv) (by unfold scanNext; rw [hc]; exact h1)

/-- **C04.** For every vector (history or boolean combination) whose tail is zeros and whose
last bit is not the very last allocated one: after a reset, scan_next answers every set
index exactly once in ascending order, then -1. Missing for the full statement: the vectors
excluded by `hroom`, for which it is false (`c04_violated_last_allocated_bit`). -/
theorem c04_scan_enumerates_partial (e : BitExpr) (ht : e.tail = false) :
    ∃ x, bvEval e = .ok x ∧ (x.size < 32 * x.bits.length →
      ∀ n, (∀ i, e.bit i = true → i < n) →
        ScanRun (scanReset x) (((List.range n).filter e.bit).map Int.ofNat)) := by
  obtain ⟨x, h, w, c, hx, g⟩ := bvEval_strong e ht
  refine ⟨x, h, fun hroom n hn => ?_⟩
  have hlg : lg (scanReset x) = e.bit := funext g
  have := scanRun_range n n 0 (scanReset x) rfl (by omega) ⟨w.weak.size_le, w.weak.tail⟩ hx hroom (by rw [hlg]; exact hn) rfl (by omega)
  rw [hlg] at this
  simpa [List.range_eq_range'] using this

/-- Scanning from `i` (inside the allocation) answers the least set index `≥ i`, or -1. -/
theorem c04_scan_from (e : BitExpr) (ht : e.tail = false) :
    ∃ x, bvEval e = .ok x ∧ ∀ i : Nat, i < 32 * x.bits.length →
      (∃ (j : Nat) (x' : BV), scanNextFrom x (i : Int) = .ok ((j : Int), x') ∧ i ≤ j ∧ e.bit j = true ∧
        ∀ k, i ≤ k → k < j → e.bit k = false) ∨
      (∃ x', scanNextFrom x (i : Int) = .ok (-1, x') ∧ ∀ k, i ≤ k → e.bit k = false) := by
  obtain ⟨x, h, w, c, hx, g⟩ := bvEval_strong e ht
  refine ⟨x, h, fun i hi => ?_⟩
  rcases scanNextFrom_spec x i w.weak hi hx with ⟨j, h1, h2, h3, h4, h5⟩ | ⟨h1, h2⟩
  · left; exact ⟨j, _, h1, h2, by rw [← g]; exact h4, fun k a b => by rw [← g]; exact h5 k a b⟩
  · right; exact ⟨_, h1, fun k a => by rw [← g]; exact h2 k a⟩

/-- **Violation.** If the last allocated bit is set, asking for the bit after it reads one
word past the allocation: `{255}` in a default vector. -/
theorem c04_violated_last_allocated_bit :
    ∃ x x1, bvEval (.hist [.set 255]) = .ok x ∧ scanNext (scanReset x) = .ok (255, x1) ∧ scanNext x1 = .ub := by
  refine ⟨_, _, rfl, rfl, ?_⟩
  decide

/-- Non-vacuity: `{3, 31, 32, 700}` meets the room hypothesis. -/
example : ∃ x, bvEval (.hist [.set 3, .set 31, .set 32, .set 700]) = .ok x ∧ x.size < 32 * x.bits.length :=
  ⟨_, rfl, by decide⟩
example : ((List.range 701).filter (BitExpr.hist [.set 3, .set 31, .set 32, .set 700]).bit).map Int.ofNat
    = [3, 31, 32, 700] := by decide +kernel

#print axioms c04_scan_enumerates_partial
#print axioms c04_scan_from

#print axioms c04_violated_last_allocated_bit
end Ferret.Props
