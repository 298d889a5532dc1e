import Verif.Model.Expand
import Verif.Spec.Strings

namespace Ferret.Expand
open Ferret Ferret.Spec

/-! ### Edits and alignments -/

/-- Two strings side by side. -/
inductive Align : List Byte → List Byte → Nat → Prop
  | nil : Align [] [] 0
  | keep {s t n} (x : Byte) : Align s t n → Align (x :: s) (x :: t) n
  | sub {s t n} (x y : Byte) : Align s t n → Align (x :: s) (y :: t) (n + 1)
  | ins {s t n} (y : Byte) : Align s t n → Align s (y :: t) (n + 1)
  | del {s t n} (x : Byte) : Align s t n → Align (x :: s) t (n + 1)

theorem Align.refl : ∀ s, Align s s 0
  | [] => .nil
  | x :: s => .keep x (Align.refl s)

theorem Align.symm {s t n} (h : Align s t n) : Align t s n := by
  induction h with
  | nil => exact .nil
  | keep x _ ih => exact .keep x ih
  | sub x y _ ih => exact .sub y x ih
  | ins y _ ih => exact .del y ih
  | del x _ ih => exact .ins x ih

theorem _root_.Ferret.Spec.Edits.prepend {n s t} (h : Edits n s t) : ∀ {r}, Edit r s → Edits (n + 1) r t := by
  induction h with
  | done s => intro r hr; exact .step (.done r) hr
  | step h1 h2 ih => intro r hr; exact .step (ih hr) h2

theorem _root_.Ferret.Spec.Edit.cons {s t} (x : Byte) (h : Edit s t) : Edit (x :: s) (x :: t) := by
  cases h with
  | insert a b y => exact .insert (x :: a) b y
  | delete a b y => exact .delete (x :: a) b y
  | replace a b y z => exact .replace (x :: a) b y z

theorem _root_.Ferret.Spec.Edits.cons {n s t} (x : Byte) (h : Edits n s t) : Edits n (x :: s) (x :: t) := by
  induction h with
  | done s => exact .done _
  | step _ h2 ih => exact .step ih (h2.cons x)

/-- An alignment gives a sequence of edits. -/
theorem Align.edits {s t n} (h : Align s t n) : Edits n s t := by
  induction h with
  | nil => exact .done _
  | keep x _ ih => exact ih.cons x
  | @sub s t n x y _ ih => exact .step (ih.cons x) (.replace [] t x y)
  | @ins s t n y _ ih => exact .step ih (.insert [] t y)
  | @del s t n x _ ih => exact .step (ih.cons x) (.delete [] t x)

/-- One more edit costs at most one more. -/
theorem Align.insert {s t n} (h : Align s t n) : ∀ (a b : List Byte) (x : Byte), t = a ++ b → ∃ m, m ≤ n + 1 ∧ Align s (a ++ x :: b) m := by
  induction h with
  | nil =>
    intro a b x e
    obtain ⟨rfl, rfl⟩ := List.nil_eq_append_iff.1 e
    exact ⟨1, by omega, .ins x .nil⟩
  | @keep s t n y h ih =>
    intro a b x e
    cases a with
    | nil => simp only [List.nil_append] at e; subst e; exact ⟨n + 1, by omega, .ins x (.keep y h)⟩
    | cons z a =>
      simp only [List.cons_append, List.cons.injEq] at e
      obtain ⟨rfl, e⟩ := e
      obtain ⟨m, hm, hal⟩ := ih a b x e
      exact ⟨m, hm, .keep y hal⟩
  | @sub s t n w y h ih =>
    intro a b x e
    cases a with
    | nil => simp only [List.nil_append] at e; subst e; exact ⟨n + 2, by omega, .ins x (.sub w y h)⟩
    | cons z a =>
      simp only [List.cons_append, List.cons.injEq] at e
      obtain ⟨rfl, e⟩ := e
      obtain ⟨m, hm, hal⟩ := ih a b x e
      exact ⟨m + 1, by omega, .sub w y hal⟩
  | @ins s t n y h ih =>
    intro a b x e
    cases a with
    | nil => simp only [List.nil_append] at e; subst e; exact ⟨n + 2, by omega, .ins x (.ins y h)⟩
    | cons z a =>
      simp only [List.cons_append, List.cons.injEq] at e
      obtain ⟨rfl, e⟩ := e
      obtain ⟨m, hm, hal⟩ := ih a b x e
      exact ⟨m + 1, by omega, .ins y hal⟩
  | @del s t n w h ih =>
    intro a b x e
    obtain ⟨m, hm, hal⟩ := ih a b x e
    exact ⟨m + 1, by omega, .del w hal⟩

theorem Align.delete {s t n} (h : Align s t n) : ∀ (a b : List Byte) (x : Byte), t = a ++ x :: b → ∃ m, m ≤ n + 1 ∧ Align s (a ++ b) m := by
  induction h with
  | nil => intro a b x e; simp at e
  | @keep s t n y h ih =>
    intro a b x e
    cases a with
    | nil => simp only [List.nil_append, List.cons.injEq] at e; obtain ⟨rfl, rfl⟩ := e; exact ⟨n + 1, by omega, .del y h⟩
    | cons z a =>
      simp only [List.cons_append, List.cons.injEq] at e
      obtain ⟨rfl, e⟩ := e
      obtain ⟨m, hm, hal⟩ := ih a b x e
      exact ⟨m, hm, .keep y hal⟩
  | @sub s t n w y h ih =>
    intro a b x e
    cases a with
    | nil => simp only [List.nil_append, List.cons.injEq] at e; obtain ⟨rfl, rfl⟩ := e; exact ⟨n + 1, by omega, .del w h⟩
    | cons z a =>
      simp only [List.cons_append, List.cons.injEq] at e
      obtain ⟨rfl, e⟩ := e
      obtain ⟨m, hm, hal⟩ := ih a b x e
      exact ⟨m + 1, by omega, .sub w y hal⟩
  | @ins s t n y h ih =>
    intro a b x e
    cases a with
    | nil => simp only [List.nil_append, List.cons.injEq] at e; obtain ⟨rfl, rfl⟩ := e; exact ⟨n, by omega, h⟩
    | cons z a =>
      simp only [List.cons_append, List.cons.injEq] at e
      obtain ⟨rfl, e⟩ := e
      obtain ⟨m, hm, hal⟩ := ih a b x e
      exact ⟨m + 1, by omega, .ins y hal⟩
  | @del s t n w h ih =>
    intro a b x e
    obtain ⟨m, hm, hal⟩ := ih a b x e
    exact ⟨m + 1, by omega, .del w hal⟩

theorem Align.replace {s t n} (h : Align s t n) : ∀ (a b : List Byte) (x y : Byte), t = a ++ x :: b → ∃ m, m ≤ n + 1 ∧ Align s (a ++ y :: b) m := by
  induction h with
  | nil => intro a b x y e; simp at e
  | @keep s t n w h ih =>
    intro a b x y e
    cases a with
    | nil => simp only [List.nil_append, List.cons.injEq] at e; obtain ⟨rfl, rfl⟩ := e; exact ⟨n + 1, by omega, .sub w y h⟩
    | cons z a =>
      simp only [List.cons_append, List.cons.injEq] at e
      obtain ⟨rfl, e⟩ := e
      obtain ⟨m, hm, hal⟩ := ih a b x y e
      exact ⟨m, hm, .keep w hal⟩
  | @sub s t n v w h ih =>
    intro a b x y e
    cases a with
    | nil => simp only [List.nil_append, List.cons.injEq] at e; obtain ⟨rfl, rfl⟩ := e; exact ⟨n + 1, by omega, .sub v y h⟩
    | cons z a =>
      simp only [List.cons_append, List.cons.injEq] at e
      obtain ⟨rfl, e⟩ := e
      obtain ⟨m, hm, hal⟩ := ih a b x y e
      exact ⟨m + 1, by omega, .sub v w hal⟩
  | @ins s t n w h ih =>
    intro a b x y e
    cases a with
    | nil => simp only [List.nil_append, List.cons.injEq] at e; obtain ⟨rfl, rfl⟩ := e; exact ⟨n + 1, by omega, .ins y h⟩
    | cons z a =>
      simp only [List.cons_append, List.cons.injEq] at e
      obtain ⟨rfl, e⟩ := e
      obtain ⟨m, hm, hal⟩ := ih a b x y e
      exact ⟨m + 1, by omega, .ins w hal⟩
  | @del s t n w h ih =>
    intro a b x y e
    obtain ⟨m, hm, hal⟩ := ih a b x y e
    exact ⟨m + 1, by omega, .del w hal⟩

theorem _root_.Ferret.Spec.Edits.align {n s t} (h : Edits n s t) : ∃ m, m ≤ n ∧ Align s t m := by
  induction h with
  | done s => exact ⟨0, by omega, Align.refl s⟩
  | @step n s t u h1 h2 ih =>
    obtain ⟨m, hm, hal⟩ := ih
    have : ∃ m', m' ≤ m + 1 ∧ Align s u m' := by
      cases h2 with
      | insert a b x => exact hal.insert a b x rfl
      | delete a b x => exact hal.delete a b x rfl
      | replace a b x y => exact hal.replace a b x y rfl
    obtain ⟨m', hm', hal'⟩ := this
    exact ⟨m', by omega, hal'⟩

/-! ### The recursion -/

/-- The usual recursion for the distance. -/
def lev : List Byte → List Byte → Nat
  | [], t => t.length
  | _ :: s, [] => s.length + 1
  | x :: s, y :: t => min (min (lev s (y :: t) + 1) (lev (x :: s) t + 1)) (if x = y then lev s t else lev s t + 1)

theorem lev_nil_right : ∀ s, lev s [] = s.length
  | [] => by simp [lev]
  | _ :: _ => by simp [lev]

theorem Align.nil_len : ∀ (t : List Byte), Align [] t t.length
  | [] => .nil
  | y :: t => .ins y (Align.nil_len t)

theorem lev_align : ∀ s t, Align s t (lev s t)
  | [], t => by rw [lev]; exact Align.nil_len t
  | x :: s, [] => by
    rw [lev]
    have := (Align.nil_len (x :: s)).symm
    simpa using this
  | x :: s, y :: t => by
    have h1 := lev_align s (y :: t)
    have h2 := lev_align (x :: s) t
    have h3 := lev_align s t
    rw [lev]
    by_cases hxy : x = y
    · subst hxy
      rw [if_pos rfl]
      rcases Nat.le_total (lev s (x :: t) + 1) (lev (x :: s) t + 1) with ha | ha
      · rw [Nat.min_eq_left ha]
        rcases Nat.le_total (lev s (x :: t) + 1) (lev s t) with hb | hb
        · rw [Nat.min_eq_left hb]; exact .del x h1
        · rw [Nat.min_eq_right hb]; exact .keep x h3
      · rw [Nat.min_eq_right ha]
        rcases Nat.le_total (lev (x :: s) t + 1) (lev s t) with hb | hb
        · rw [Nat.min_eq_left hb]; exact .ins x h2
        · rw [Nat.min_eq_right hb]; exact .keep x h3
    · rw [if_neg hxy]
      rcases Nat.le_total (lev s (y :: t) + 1) (lev (x :: s) t + 1) with ha | ha
      · rw [Nat.min_eq_left ha]
        rcases Nat.le_total (lev s (y :: t) + 1) (lev s t + 1) with hb | hb
        · rw [Nat.min_eq_left hb]; exact .del x h1
        · rw [Nat.min_eq_right hb]; exact .sub x y h3
      · rw [Nat.min_eq_right ha]
        rcases Nat.le_total (lev (x :: s) t + 1) (lev s t + 1) with hb | hb
        · rw [Nat.min_eq_left hb]; exact .ins y h2
        · rw [Nat.min_eq_right hb]; exact .sub x y h3

theorem lev_cons_left (x : Byte) (s t : List Byte) : lev (x :: s) t ≤ lev s t + 1 := by
  cases t with
  | nil => rw [lev_nil_right, lev_nil_right]; simp
  | cons y t => rw [lev]; omega

theorem lev_cons_right (y : Byte) (s t : List Byte) : lev s (y :: t) ≤ lev s t + 1 := by
  cases s with
  | nil => simp [lev]
  | cons x s => rw [lev]; omega

theorem lev_le {s t n} (h : Align s t n) : lev s t ≤ n := by
  induction h with
  | nil => simp [lev]
  | keep x _ ih => rw [lev, if_pos rfl]; omega
  | sub x y _ ih => rw [lev]; split <;> omega
  | @ins s t n y _ ih => have := lev_cons_right y s t; omega
  | @del s t n x _ ih => have := lev_cons_left x s t; omega

theorem lev_distance (s t : List Byte) : IsDistance s t (lev s t) :=
  ⟨(lev_align s t).edits, fun m h => by obtain ⟨k, hk, hal⟩ := h.align; have := lev_le hal; omega⟩

theorem distance_unique {s t n m} (h : IsDistance s t n) (h' : IsDistance s t m) : n = m :=
  Nat.le_antisymm (h.2 _ h'.1) (h'.2 _ h.1)

/-! ### Reversal and common prefixes -/

theorem _root_.Ferret.Spec.Edit.rev {s t} (h : Edit s t) : Edit s.reverse t.reverse := by
  cases h with
  | insert a b x => simpa using Edit.insert b.reverse a.reverse x
  | delete a b x => simpa using Edit.delete b.reverse a.reverse x
  | replace a b x y => simpa using Edit.replace b.reverse a.reverse x y

theorem _root_.Ferret.Spec.Edits.rev {n s t} (h : Edits n s t) : Edits n s.reverse t.reverse := by
  induction h with
  | done s => exact .done _
  | step _ h2 ih => exact .step ih h2.rev

theorem lev_reverse (s t : List Byte) : lev s.reverse t.reverse = lev s t := by
  refine distance_unique (lev_distance _ _) ⟨(lev_align s t).edits.rev, fun m h => ?_⟩
  have := h.rev
  rw [List.reverse_reverse, List.reverse_reverse] at this
  exact (lev_distance s t).2 m this

theorem lev_same (x : Byte) (s t : List Byte) : lev (x :: s) (x :: t) = lev s t := by
  have h1 : lev s t ≤ lev s (x :: t) + 1 := by
    obtain ⟨m, hm, hal⟩ := (lev_align s (x :: t)).delete [] t x rfl
    have := lev_le hal
    simp only [List.nil_append] at this
    omega
  have h2 : lev s t ≤ lev (x :: s) t + 1 := by
    obtain ⟨m, hm, hal⟩ := (lev_align (x :: s) t).symm.delete [] s x rfl
    have := lev_le hal.symm
    simp only [List.nil_append] at this
    omega
  rw [lev, if_pos rfl]
  omega

theorem lev_prefix : ∀ (p s t : List Byte), lev (p ++ s) (p ++ t) = lev s t
  | [], _, _ => rfl
  | x :: p, s, t => by rw [List.cons_append, List.cons_append, lev_same, lev_prefix p s t]

/-! ### The two rows -/

/-- The row of the table after `s` (reversed) against the beginnings of the text; `done` reversed. -/
def rowOf (s : List Byte) : List Byte → List Byte → List Nat
  | done, [] => [lev s done]
  | done, x :: xs => lev s done :: rowOf s (x :: done) xs

theorem rowOf_length (s : List Byte) : ∀ (xs done : List Byte), (rowOf s done xs).length = xs.length + 1
  | [], _ => rfl
  | _ :: xs, done => by simp [rowOf, rowOf_length s xs]

theorem rowOf_head (s done xs : List Byte) : ∃ l, rowOf s done xs = lev s done :: l := by
  cases xs with
  | nil => exact ⟨[], rfl⟩
  | cons x xs => exact ⟨_, rfl⟩

theorem min3_eq (a b c : Nat) : min3 a b c = min (min a b) c := by
  unfold min3
  split <;> split <;> omega

theorem rowLoop_spec (c : Byte) (s : List Byte) : ∀ (xs done : List Byte),
    ∃ r, rowLoop c (lev (c :: s) done) (rowOf s done xs) xs = .ok r ∧ rowOf (c :: s) done xs = lev (c :: s) done :: r := by
  intro xs
  induction xs with
  | nil => intro done; exact ⟨[], rfl, rfl⟩
  | cons x xs ih =>
    intro done
    obtain ⟨l, hl⟩ := rowOf_head s (x :: done) xs
    have hv : (if c = x then min3 (lev s (x :: done) + 1) (lev (c :: s) done + 1) (lev s done)
        else min3 (lev s (x :: done)) (lev (c :: s) done) (lev s done) + 1) = lev (c :: s) (x :: done) := by
      rw [lev, min3_eq, min3_eq]
      split <;> omega
    obtain ⟨r, hr, hrow⟩ := ih (x :: done)
    rw [hl] at hr
    refine ⟨lev (c :: s) (x :: done) :: r, ?_, ?_⟩
    · simp only [rowOf, hl, rowLoop, hv, hr, Res.ok_bind]
    · simp only [rowOf, hrow]

theorem rowOf_nil : ∀ (xs done : List Byte), rowOf [] done xs = (List.range (xs.length + 1)).map (· + done.length)
  | [], done => by simp [rowOf, lev]
  | x :: xs, done => by
    rw [rowOf, rowOf_nil xs (x :: done), show (x :: xs).length + 1 = xs.length + 1 + 1 from rfl, List.range_succ_eq_map (n := xs.length + 1)]
    simp only [List.map_cons, List.map_map, lev, List.cons.injEq, Nat.zero_add, true_and]
    apply List.map_congr_left
    intro a _
    simp only [List.length_cons, Function.comp_apply]
    omega

theorem rowOf_last (s : List Byte) : ∀ (xs done : List Byte), (rowOf s done xs)[xs.length]? = some (lev s (xs.reverse ++ done))
  | [], done => by simp [rowOf]
  | x :: xs, done => by simp [rowOf, rowOf_last s xs (x :: done)]

/-- Every entry of the next row is at least the least of the previous one. -/
theorem row_mono (c : Byte) (s : List Byte) (k : Nat) : ∀ (xs done : List Byte), (∀ v ∈ rowOf s done xs, k ≤ v) → k ≤ lev (c :: s) done → ∀ v ∈ rowOf (c :: s) done xs, k ≤ v := by
  intro xs
  induction xs with
  | nil => intro done _ h v hv; simp only [rowOf, List.mem_singleton] at hv; omega
  | cons x xs ih =>
    intro done hrow hk v hv
    simp only [rowOf, List.mem_cons] at hv hrow
    rcases hv with rfl | hv
    · exact hk
    · refine ih (x :: done) (fun v hv => hrow v (Or.inr hv)) ?_ v hv
      obtain ⟨l, hl⟩ := rowOf_head s (x :: done) xs
      have h1 := hrow (lev s (x :: done)) (Or.inr (by rw [hl]; simp))
      have h2 := hrow (lev s done) (Or.inl rfl)
      rw [lev]
      split <;> omega

theorem rows_mono (k : Nat) (xs : List Byte) : ∀ (cs s : List Byte), (∀ v ∈ rowOf s [] xs, k ≤ v) → ∀ v ∈ rowOf (cs.reverse ++ s) [] xs, k ≤ v := by
  intro cs
  induction cs with
  | nil => intro s h; simpa using h
  | cons c cs ih =>
    intro s h
    rw [List.reverse_cons, List.append_assoc, List.singleton_append]
    refine ih (c :: s) (row_mono c s k xs [] h ?_)
    obtain ⟨l, hl⟩ := rowOf_head s [] xs
    have := h (lev s []) (by rw [hl]; simp)
    rw [lev_nil_right] at *
    simp only [List.length_cons]
    omega

theorem rows_spec (text : List Byte) (maxd : Int) : ∀ (cs s : List Byte), ∃ r, rows text maxd s.length (rowOf s [] text) cs = .ok r ∧
    (∀ row, r = some row → row = rowOf (cs.reverse ++ s) [] text) ∧ (r = none → maxd < lev (cs.reverse ++ s) text.reverse) := by
  intro cs
  induction cs with
  | nil => intro s; exact ⟨_, rfl, fun row e => by cases e; rfl, fun e => nomatch e⟩
  | cons c cs ih =>
    intro s
    obtain ⟨r, hr, hrow⟩ := rowLoop_spec c s text []
    rw [lev_nil_right, List.length_cons] at hr hrow
    simp only [rows]
    rw [hr, Res.ok_bind, ← hrow]
    rw [List.reverse_cons, List.append_assoc, List.singleton_append]
    split
    · rename_i hall
      refine ⟨none, rfl, fun row e => (nomatch e), fun _ => ?_⟩
      have hmem : lev (cs.reverse ++ c :: s) text.reverse ∈ rowOf (cs.reverse ++ c :: s) [] text := by
        have := rowOf_last (cs.reverse ++ c :: s) text []
        rw [List.append_nil] at this
        exact List.mem_of_getElem? this
      rw [List.all_eq_true] at hall
      have hall' : ∀ v ∈ rowOf (c :: s) [] text, maxd < (v : Int) := fun v hv => by simpa using hall v hv
      cases hm : maxd with
      | ofNat k =>
        have := rows_mono (k + 1) text cs (c :: s) (fun v hv => by have := hall' v hv; rw [hm] at this; simp only [Int.ofNat_eq_natCast] at this; omega) _ hmem
        simp only [Int.ofNat_eq_natCast]
        omega
      | negSucc k => omega
    · exact ih (c :: s)

/-! ### Other bounds -/

theorem lev_length (s t : List Byte) : ((s.length : Int) - t.length).natAbs ≤ lev s t := by
  have h := lev_align s t
  generalize lev s t = n at h
  induction h with
  | nil => simp
  | keep x _ ih => simp only [List.length_cons]; omega
  | sub x y _ ih => simp only [List.length_cons]; omega
  | ins y _ ih => simp only [List.length_cons]; omega
  | del x _ ih => simp only [List.length_cons]; omega

end Ferret.Expand
