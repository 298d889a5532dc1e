import Verif.Lemmas.HashSet
import Verif.Props.C05

/-!
C06: the hash set keeps insertion order without duplicates.
-/

namespace Ferret.Props
open Ferret.Hash (Fns Laws)
open Ferret.HashSet Ferret.Spec

variable {K : Type}

/-- Any sequence of calls on a new set, enumerations included, returns what it returns on a list of
pairwise different elements kept in the order of insertion. No call follows a dangling pointer. -/
theorem c06_ordered_set (F : Fns K) (L : Laws F) (ops : List (SOp K)) :
    ∃ hs, HashSet.doOps F new ops = .ok ((srun F.eq F.same [] ops).1, hs) := by
  obtain ⟨hs, _, h, _, _⟩ := HashSet.doOps_spec L ops srel_new
  exact ⟨hs, h⟩

/-- The list never holds two equal elements. -/
theorem c06_no_duplicates (F : Fns K) (L : Laws F) (ops : List (SOp K)) :
    (srun F.eq F.same [] ops).2.Pairwise (fun a b => F.eq a b = false) := by
  obtain ⟨hs, cells, h, h1, h2⟩ := HashSet.doOps_spec L ops srel_new
  rw [show (([] : List (Cell K)).map (·.1)) = [] from rfl] at h2
  rw [← h2, List.pairwise_map]
  exact h1.ht.dist

/-- Whether a call adds or removes elements equal to `k`: `some true` / `some false`, or `none` when
it does neither. -/
def membership (eq : K → K → Bool) (k : K) : SOp K → Option Bool
  | .add x => if eq x k then some true else none
  | .addSafe x => if eq x k then some true else none
  | .rem x => if eq x k then some false else none
  | .del x => if eq x k then some false else none
  | .clear => some false
  | .merge other => if other.any (fun x => eq x k) then some true else none
  | _ => none

/-- The last call that concerns `k` decides whether it is in the set. -/
def isIn (eq : K → K → Bool) (k : K) (b : Bool) : List (SOp K) → Bool
  | [] => b
  | op :: ops => isIn eq k ((membership eq k op).getD b) ops

theorem any_sadd {F : Fns K} (L : Laws F) (l : List K) (x k : K) :
    (sadd F.eq l x).any (fun y => F.eq y k) = (l.any (fun y => F.eq y k) || F.eq x k) := by
  unfold sadd
  by_cases h : (sfind F.eq l x).isSome = true
  · rw [if_pos h]
    obtain ⟨y, hy⟩ := Option.isSome_iff_exists.1 h
    have h1 := List.find?_some hy
    have h2 := List.mem_of_find?_eq_some hy
    cases hx : F.eq x k with
    | false => simp
    | true =>
      simp only [Bool.or_true, List.any_eq_true]
      exact ⟨y, h2, L.trans _ _ _ h1 hx⟩
  · rw [if_neg h]; simp

theorem any_foldl {F : Fns K} (L : Laws F) (xs : List K) (k : K) : ∀ l,
    (xs.foldl (sadd F.eq) l).any (fun y => F.eq y k) = (l.any (fun y => F.eq y k) || xs.any (fun y => F.eq y k)) := by
  induction xs with
  | nil => intro l; simp
  | cons x xs ih => intro l; simp only [List.foldl_cons, ih, any_sadd L, List.any_cons, Bool.or_assoc]

theorem any_sdel {F : Fns K} (L : Laws F) (l : List K) (x k : K) :
    (sdel F.eq l x).any (fun y => F.eq y k) = if F.eq x k then false else l.any (fun y => F.eq y k) := by
  unfold sdel
  rw [List.any_filter]
  by_cases hx : F.eq x k = true
  · rw [if_pos hx, List.any_eq_false]
    intro y _
    rw [Hash.eq_comm' L y x, Hash.eq_cong L hx, Hash.eq_comm' L k y]
    cases F.eq y k <;> simp
  · rw [if_neg hx]
    congr 1; funext y
    cases hy : F.eq y k with
    | false => simp
    | true =>
      rw [Hash.eq_cong L hy, Hash.eq_comm' L]
      simpa using hx

theorem any_sstep {F : Fns K} (L : Laws F) (l : List K) (k : K) (op : SOp K) :
    (sstep F.eq F.same l op).2.any (fun y => F.eq y k) = (membership F.eq k op).getD (l.any (fun y => F.eq y k)) := by
  cases op with
  | add x => simp only [sstep, any_sadd L, membership]; cases F.eq x k <;> simp
  | addSafe x => simp only [sstep, any_sadd L, membership]; cases F.eq x k <;> simp
  | rem x => simp only [sstep, any_sdel L, membership]; cases F.eq x k <;> simp
  | del x => simp only [sstep, any_sdel L, membership]; cases F.eq x k <;> simp
  | exist x => rfl
  | orig x => rfl
  | count => rfl
  | elems => rfl
  | clear => rfl
  | merge other =>
    simp only [sstep, any_foldl L, membership]
    cases other.any (fun y => F.eq y k) <;> simp

theorem any_srun {F : Fns K} (L : Laws F) (k : K) (ops : List (SOp K)) : ∀ l,
    (srun F.eq F.same l ops).2.any (fun y => F.eq y k) = isIn F.eq k (l.any (fun y => F.eq y k)) ops := by
  induction ops with
  | nil => intro l; rfl
  | cons op ops ih => intro l; show (srun F.eq F.same (sstep F.eq F.same l op).2 ops).2.any _ = _; rw [ih, any_sstep L]; rfl

theorem srun_append (eq same : K → K → Bool) (a b : List (SOp K)) : ∀ m, srun eq same m (a ++ b) =
    ((srun eq same m a).1 ++ (srun eq same (srun eq same m a).2 b).1, (srun eq same (srun eq same m a).2 b).2) := by
  induction a with
  | nil => intro m; rfl
  | cons op a ih => intro m; simp only [List.cons_append, srun, ih]

/-- After any history the enumeration lists an element equal to `k` exactly when the last call that
concerns `k` added it. -/
theorem c06_contents (F : Fns K) (L : Laws F) (ops : List (SOp K)) (k : K) :
    ∃ obs l hs, HashSet.doOps F new (ops ++ [.elems]) = .ok (obs ++ [.list l], hs) ∧
      l.Pairwise (fun a b => F.eq a b = false) ∧ l.any (fun y => F.eq y k) = isIn F.eq k false ops := by
  obtain ⟨hs, h⟩ := c06_ordered_set F L (ops ++ [.elems])
  rw [srun_append] at h
  exact ⟨_, _, hs, h, c06_no_duplicates F L ops, any_srun L k ops []⟩

example : (match HashSet.doOps collide new [.add 1, .add 2, .add 3, .add 2, .elems, .rem 2, .elems, .add 2, .del 1, .elems, .merge [5, 3, 5, 6], .elems, .count, .rem 6, .elems] with
    | .ok r => some r.1 | _ => none) =
    some [.absent, .absent, .absent, .same, .list [1, 2, 3], .elem (some 2), .list [1, 3], .absent, .bool true, .list [3, 2], .unit, .list [3, 2, 5, 6], .num 4, .elem (some 6), .list [3, 2, 5]] := by
  decide +kernel

#print axioms c06_ordered_set
#print axioms c06_no_duplicates
#print axioms c06_contents
end Ferret.Props
