import Verif.Lemmas.HashRun

/-!
C05: the hash table behaves as a finite map.
-/

namespace Ferret.Props
open Ferret.Hash Ferret.Spec

variable {K V : Type}

/-- Any sequence of calls on a new table returns what the same calls return on a map; in particular
every call returns (no probe runs forever or leaves the table). `Laws F` asks that the caller's
equality is an equivalence which contains identity of keys, that equal keys have equal hashes and,
for tables keyed by pointers or integers, that keys with equal values are equal. Nothing is asked
of how the hash function spreads the keys. -/
theorem c05_finite_map (F : Fns K) (L : Laws F) (ops : List (HOp K V)) :
    ∃ t, doOps F new ops = .ok ((hrun F.eq F.same [] ops).1, t) := by
  obtain ⟨t, h, _⟩ := doOps_spec L ops rel_new
  exact ⟨t, h⟩

/-- Enumerating the table after any sequence of calls visits each live pair exactly once. -/
theorem c05_enumeration (F : Fns K) (L : Laws F) (ops : List (HOp K V)) :
    ∃ obs t, ∃ l : List (K × V), doOps F new ops = .ok (obs, t) ∧ each t = .ok (l.map (fun p => (p.1, some p.2))) ∧
      l.Perm (hrun F.eq F.same [] ops).2 := by
  obtain ⟨t, h, hr⟩ := doOps_spec L ops rel_new
  obtain ⟨l, h1, h2⟩ := each_spec hr
  exact ⟨_, t, l, h, h1, h2⟩

/-- The value of `k` after a history, written without a map: that of the last call that set it,
unless it was removed since. -/
def valueAfter (eq : K → K → Bool) (k : K) : Option V → List (HOp K V) → Option V
  | cur, [] => cur
  | cur, .set k' v :: ops => valueAfter eq k (if eq k' k then some v else cur) ops
  | cur, .setSafe k' v :: ops => valueAfter eq k (if eq k' k && cur.isNone then some v else cur) ops
  | cur, .del k' :: ops => valueAfter eq k (if eq k' k then none else cur) ops
  | cur, .rem k' :: ops => valueAfter eq k (if eq k' k then none else cur) ops
  | _, .clear :: ops => valueAfter eq k none ops
  | cur, .get _ :: ops => valueAfter eq k cur ops
  | cur, .has _ :: ops => valueAfter eq k cur ops
  | cur, .count :: ops => valueAfter eq k cur ops

theorem mfind_mdel {F : Fns K} (L : Laws F) (m : List (K × V)) (k k' : K) :
    mfind F.eq (mdel F.eq m k') k = if F.eq k' k then none else mfind F.eq m k := by
  unfold mfind mdel
  by_cases h : F.eq k' k = true
  · rw [if_pos h, List.find?_eq_none]
    intro p hp
    have := (List.mem_filter.1 hp).2
    have h2 : F.eq p.1 k' = false := by simpa using this
    rw [eq_comm' L, ← eq_cong L h, eq_comm' L, h2]; simp
  · rw [if_neg h, List.find?_filter]
    congr 1
    funext p
    cases hc : F.eq p.1 k with
    | false => simp
    | true =>
      have : F.eq p.1 k' = false := by
        rw [eq_cong L hc, eq_comm' L]; simpa using h
      simp [this]

theorem mfind_hrun {F : Fns K} (L : Laws F) (k : K) (ops : List (HOp K V)) : ∀ m : List (K × V),
    (mfind F.eq (hrun F.eq F.same m ops).2 k).map (·.2) = valueAfter F.eq k ((mfind F.eq m k).map (·.2)) ops := by
  induction ops with
  | nil => intro m; rfl
  | cons op ops ih =>
    intro m
    show (mfind F.eq (hrun F.eq F.same (hstep F.eq F.same m op).2 ops).2 k).map (·.2) = _
    rw [ih]
    cases op with
    | set k' v =>
      simp only [hstep, valueAfter]
      congr 1
      show (List.find? _ ((k', v) :: mdel F.eq m k')).map _ = _
      rw [List.find?_cons]
      by_cases h : F.eq k' k = true
      · simp [h]
      · simp only [h, if_false]
        have := mfind_mdel L m k k'
        rw [if_neg h] at this
        rw [← this]; rfl
    | setSafe k' v =>
      simp only [hstep, valueAfter]
      congr 1
      by_cases h : F.eq k' k = true
      · have hm : mfind F.eq m k' = mfind F.eq m k := by
          unfold mfind; congr 1; funext p
          rw [eq_comm' L, eq_cong L h, eq_comm' L]
        rw [hm]
        cases hc : mfind F.eq m k with
        | none => simp only [h, Option.map_none, Option.isNone_none, Bool.and_self, if_true]; show (List.find? _ ((k', v) :: m)).map _ = _; rw [List.find?_cons]; simp [h]
        | some p => simp [hc]
      · cases hc : mfind F.eq m k' with
        | none =>
          simp only [h, Bool.false_and, Bool.false_eq_true, if_false]
          show (List.find? _ ((k', v) :: m)).map _ = _; rw [List.find?_cons]; simp [h]; rfl
        | some p => simp [h]
    | get k' => rfl
    | has k' => rfl
    | count => rfl
    | clear => rfl
    | del k' =>
      simp only [hstep, valueAfter]
      rw [mfind_mdel L]
      split <;> rfl
    | rem k' =>
      simp only [hstep, valueAfter]
      rw [mfind_mdel L]
      split <;> rfl

theorem hrun_append (eq same : K → K → Bool) (a b : List (HOp K V)) : ∀ m, hrun eq same m (a ++ b) =
    ((hrun eq same m a).1 ++ (hrun eq same (hrun eq same m a).2 b).1, (hrun eq same (hrun eq same m a).2 b).2) := by
  induction a with
  | nil => intro m; rfl
  | cons op a ih => intro m; simp only [List.cons_append, hrun, ih]

/-- A lookup after any history returns the value of the last set not followed by a delete. -/
theorem c05_lookup_is_last_set (F : Fns K) (L : Laws F) (ops : List (HOp K V)) (k : K) :
    ∃ obs t, doOps F new (ops ++ [.get k]) = .ok (obs ++ [.val (valueAfter F.eq k none ops)], t) := by
  obtain ⟨t, h⟩ := c05_finite_map F L (ops ++ [.get k])
  rw [hrun_append] at h
  refine ⟨(hrun F.eq F.same [] ops).1, t, ?_⟩
  rw [h]
  have := mfind_hrun L k ops []
  simp only [hrun, hstep, this]
  rfl

/-- All keys collide. -/
def collide : Fns Nat := ⟨fun _ => 7, fun a b => a == b, fun a b => a == b, false⟩

theorem collide_laws : Laws collide := by
  refine ⟨?_, ?_, ?_, ?_, ?_, ?_⟩ <;> simp [collide] <;> intros <;> simp_all

/-- A table of integers. -/
def intFns : Fns UInt64 := ⟨id, fun a b => a == b, fun _ _ => false, true⟩

theorem intFns_laws : Laws intFns := by
  refine ⟨?_, ?_, ?_, ?_, ?_, ?_⟩ <;> simp [intFns] <;> intros <;> simp_all

/-- Enough calls to grow the table, with deletions and re-insertions, all keys colliding. -/
def sampleOps : List (HOp Nat Nat) :=
  [.set 1 10, .set 2 20, .set 3 30, .del 2, .get 3, .setSafe 2 21, .set 4 40, .set 5 50, .set 6 60, .rem 1, .set 7 70, .set 8 80, .get 2, .has 1, .set 3 31, .get 3, .count]

example : (match doOps collide new sampleOps with | .ok r => some (r.1.drop 12) | _ => none) =
    some [.val (some 21), .absent, .same, .val (some 31), .num 7] := by decide +kernel

example : valueAfter collide.eq 3 none sampleOps = some 31 := by decide

example : (match doOps intFns new [.set 8 1, .set 16 2, .del 8, .get 16, .get 8, .set 8 3, .count, .get 8, .get 24] with
    | .ok r => some (r.1.drop 3) | _ => none) =
    some [.val (some 2), .val none, .absent, .num 2, .val (some 3), .val none] := by decide +kernel

#print axioms c05_finite_map
#print axioms c05_enumeration
#print axioms c05_lookup_is_last_set
end Ferret.Props
