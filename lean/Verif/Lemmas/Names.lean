import Verif.Model.Names

namespace Ferret.Names
open Ferret Ferret.Spec

/-- The value of a digit. -/
def dval (c : Byte) : Nat := if c.toNat ≤ 57 then c.toNat - 48 else c.toNat - 87

def IsDigit (c : Byte) : Prop := (48 ≤ c.toNat ∧ c.toNat ≤ 57) ∨ (97 ≤ c.toNat ∧ c.toNat ≤ 122)

def value (base : Nat) (u : Nat) (ds : Name) : Nat := ds.foldl (fun a c => a * base + dval c) u

theorem digitmap_get (d : Nat) (h : d < 36) : ∃ c, digitmap[d]? = some c ∧ IsDigit c ∧ dval c = d ∧ (d < 10 → c.toNat ≤ 57) := by
  have : ∀ d : Fin 36, ∃ c, digitmap[d.val]? = some c ∧ IsDigit c ∧ dval c = d.val ∧ (d.val < 10 → c.toNat ≤ 57) := by
    unfold IsDigit
    intro d
    refine ⟨digitmap[d.val]'(by have := d.2; simpa [digitmap] using this), ?_⟩
    revert d
    decide
  exact this ⟨d, h⟩

theorem value_append (base u : Nat) (a b : Name) : value base u (a ++ b) = value base (value base u a) b := by
  simp [value, List.foldl_append]

theorem value_cons (base u : Nat) (c : Byte) (b : Name) : value base u (c :: b) = value base (u * base + dval c) b := rfl

theorem digitsLoop_spec (base : Nat) (hb : 2 ≤ base) (hb' : base ≤ 36) : ∀ (k u : Nat) (acc : Name), u < base ^ k → 0 < k →
    ∃ ds, digitsLoop base k u acc = .ok (ds ++ acc) ∧ (∀ c ∈ ds, IsDigit c) ∧ value base 0 ds = u ∧ ds ≠ [] ∧ ds.length ≤ k ∧ (base ≤ 10 → ∀ c ∈ ds, c.toNat ≤ 57) := by
  intro k
  induction k with
  | zero => intro u acc _ h; omega
  | succ k ih =>
    intro u acc hu _
    have hm : u % base < base := Nat.mod_lt _ (by omega)
    obtain ⟨c, h1, h2, h3, h4⟩ := digitmap_get (u % base) (by omega)
    simp only [digitsLoop, h1, Res.ofOption, Res.ok_bind]
    have hdm := Nat.div_add_mod u base
    by_cases hz : u / base = 0
    · rw [if_pos hz]
      refine ⟨[c], rfl, by simpa using h2, ?_, by simp, by simp, ?_⟩
      · simp only [value, List.foldl, h3]
        rw [hz] at hdm
        omega
      · intro hb10 c' hc'
        simp at hc'
        subst hc'
        exact h4 (by omega)
    · rw [if_neg hz]
      have hlt : u / base < base ^ k := Nat.div_lt_of_lt_mul (by rw [Nat.pow_succ, Nat.mul_comm] at hu; exact hu)
      have hk : 0 < k := by
        cases k with
        | zero => simp at hlt; simp [hlt] at hz
        | succ k => omega
      obtain ⟨ds, e1, e2, e3, e4, e5, e6⟩ := ih (u / base) (c :: acc) hlt hk
      refine ⟨ds ++ [c], by rw [e1]; simp, ?_, ?_, by simp, by simp; omega, ?_⟩
      · intro x hx
        rw [List.mem_append] at hx
        rcases hx with hx | hx
        · exact e2 x hx
        · simp at hx; subst hx; exact h2
      · rw [value_append, e3]
        simp only [value, List.foldl, h3]
        rw [Nat.mul_comm]
        exact hdm
      · intro hb10 x hx
        rw [List.mem_append] at hx
        rcases hx with hx | hx
        · exact e6 hb10 x hx
        · simp at hx; subst hx; exact h4 (by omega)

theorem u64ToStr36_spec (n u : Nat) (hu : u < 2 ^ 64) (hn : 14 ≤ n) : ∃ ds, u64ToStr36 n u = .ok ds ∧ (∀ c ∈ ds, IsDigit c) ∧ value 36 0 ds = u ∧ ds ≠ [] ∧ ds.length ≤ 13 := by
  have key : ∃ ds, digitsLoop 36 13 u [] = .ok (ds ++ []) ∧ (∀ c ∈ ds, IsDigit c) ∧ value 36 0 ds = u ∧ ds ≠ [] ∧ ds.length ≤ 13 := by
    obtain ⟨ds, h1, h2, h3, h4, h5, -⟩ := digitsLoop_spec 36 (by decide) (by decide) 13 u [] (Nat.lt_of_lt_of_le hu (by decide)) (by decide)
    exact ⟨ds, h1, h2, h3, h4, h5⟩
  have mono : ∀ k u acc r, digitsLoop 36 k u acc = .ok r → ∀ j, digitsLoop 36 (k + j) u acc = .ok r := by
    intro k
    induction k with
    | zero => intro u acc r h; simp [digitsLoop] at h
    | succ k ih =>
      intro u acc r h j
      rw [show k + 1 + j = (k + j) + 1 by omega]
      simp only [digitsLoop] at h ⊢
      rw [Res.bind_eq_ok] at h
      obtain ⟨d, hd, h⟩ := h
      rw [hd, Res.ok_bind]
      by_cases hz : u / 36 = 0
      · rw [if_pos hz] at h ⊢; exact h
      · rw [if_neg hz] at h ⊢; exact ih _ _ _ h j
  obtain ⟨ds, h1, h2⟩ := key
  refine ⟨ds, ?_, h2⟩
  unfold u64ToStr36
  rw [List.append_nil] at h1
  have := mono _ _ _ _ h1 (n - 1 - 13)
  rwa [show 13 + (n - 1 - 13) = n - 1 by omega] at this

theorem decimal_spec (n : Nat) (h : n < 2 ^ 31) : ∃ ds, decimal n = .ok ds ∧ (∀ c ∈ ds, 48 ≤ c.toNat ∧ c.toNat ≤ 57) ∧ value 10 0 ds = n ∧ ds.length ≤ 10 := by
  obtain ⟨ds, h1, h2, h3, h4, h5, h6⟩ := digitsLoop_spec 10 (by decide) (by decide) 10 n [] (Nat.lt_of_lt_of_le h (by decide)) (by decide)
  refine ⟨ds, by rw [decimal, h1, List.append_nil], ?_, h3, h5⟩
  intro c hc
  have := h2 c hc
  have := h6 (by decide) c hc
  unfold IsDigit at *
  omega

theorem value_mono (base : Nat) (hb : 1 ≤ base) : ∀ (ds : Name) (u : Nat), u ≤ value base u ds := by
  intro ds
  induction ds with
  | nil => intro u; exact Nat.le_refl _
  | cons c cs ih =>
    intro u
    rw [value_cons]
    have h1 := ih (u * base + dval c)
    have h2 : u * 1 ≤ u * base := Nat.mul_le_mul_left _ hb
    omega

/-- Parsing stops at anything that is not a digit. -/
theorem str36ToU64_spec : ∀ (ds : Name) (u : Nat) (rest : Name), (∀ c ∈ ds, IsDigit c) → (∀ c, rest.head? = some c → ¬ IsDigit c) → value 36 u ds < 2 ^ 64 →
    str36ToU64 u (ds ++ rest) = value 36 u ds := by
  intro ds
  induction ds with
  | nil =>
    intro u rest _ hr _
    cases rest with
    | nil => rfl
    | cons c cs =>
      have := hr c rfl
      unfold IsDigit at this
      simp only [List.nil_append, str36ToU64]
      rw [if_neg (by omega), if_neg (by omega)]
      rfl
  | cons c cs ih =>
    intro u rest hd hr hv
    have hc := hd c (by simp)
    have hm := value_mono 36 (by decide) cs (u * 36 + dval c)
    rw [value_cons] at hv ⊢
    have hi := fun v => ih v rest (fun x hx => hd x (by simp [hx])) hr
    simp only [List.cons_append, str36ToU64]
    unfold IsDigit at hc
    unfold dval at *
    by_cases h1 : 48 ≤ c.toNat ∧ c.toNat ≤ 57
    · rw [if_pos h1, ← hi _ hv]
      congr 1
      simp only [if_pos h1.2] at *
      rw [Nat.mod_eq_of_lt (by omega)]
      omega
    · rw [if_neg h1, if_pos (by omega), ← hi _ hv]
      congr 1
      have : ¬ c.toNat ≤ 57 := by omega
      simp only [if_neg this] at *
      rw [Nat.mod_eq_of_lt (by omega)]
      omega

theorem afterLast_none : ∀ (n : Name), (95 : Byte) ∉ n → afterLast n = none := by
  intro n
  induction n with
  | nil => intro _; rfl
  | cons c cs ih =>
    intro h
    simp only [List.mem_cons, not_or] at h
    simp only [afterLast]
    rw [ih h.2]
    simp only
    rw [if_neg (fun e => h.1 e.symm)]

theorem afterLast_append : ∀ (a n : Name), (95 : Byte) ∉ n → afterLast (a ++ 95 :: n) = some n := by
  intro a
  induction a with
  | nil =>
    intro n h
    simp only [List.nil_append, afterLast]
    rw [afterLast_none n h]
    rfl
  | cons c cs ih =>
    intro n h
    simp only [List.cons_append, afterLast]
    rw [ih n h]

theorem digit_ne_underscore {ds : Name} (h : ∀ c ∈ ds, IsDigit c) : (95 : Byte) ∉ ds := by
  intro hm
  have := h _ hm
  unfold IsDigit at this
  have e : (95 : Byte).toNat = 95 := rfl
  omega

theorem digit_ne_dot {ds : Name} (h : ∀ c ∈ ds, IsDigit c) : (46 : Byte) ∉ ds := by
  intro hm
  have := h _ hm
  unfold IsDigit at this
  have e : (46 : Byte).toNat = 46 := rfl
  omega

/-- Splitting at the last occurrence. -/
theorem split_last {c : Byte} : ∀ {a b x y : Name}, c ∉ x → c ∉ y → a ++ c :: x = b ++ c :: y → a = b ∧ x = y := by
  intro a
  induction a with
  | nil =>
    intro b x y hx hy h
    cases b with
    | nil => simp at h; exact ⟨rfl, h⟩
    | cons d ds =>
      simp at h
      exact absurd (by rw [h.2]; simp) hx
  | cons e es ih =>
    intro b x y hx hy h
    cases b with
    | nil =>
      simp at h
      exact absurd (by rw [← h.2]; simp) hy
    | cons d ds =>
      simp only [List.cons_append, List.cons.injEq] at h
      obtain ⟨h1, h2⟩ := ih hx hy h.2
      exact ⟨by rw [h.1, h1], h2⟩

/-- Splitting at the first occurrence. -/
theorem split_first {c : Byte} : ∀ {a b x y : Name}, c ∉ a → c ∉ b → a ++ c :: x = b ++ c :: y → a = b ∧ x = y := by
  intro a
  induction a with
  | nil =>
    intro b x y ha hb h
    cases b with
    | nil => simp at h; exact ⟨rfl, h⟩
    | cons d ds =>
      simp at h
      exact absurd (by rw [← h.1]; simp) hb
  | cons e es ih =>
    intro b x y ha hb h
    cases b with
    | nil =>
      simp at h
      exact absurd (by rw [h.1]; simp) ha
    | cons d ds =>
      simp only [List.cons_append, List.cons.injEq] at h
      simp only [List.mem_cons, not_or] at ha hb
      obtain ⟨h1, h2⟩ := ih ha.2 hb.2 h.2
      exact ⟨by rw [h.1, h1], h2⟩

theorem toU_lt (k : Nat) (x : Int) : toU k x < 256 ^ k := by
  unfold toU
  have : (0 : Int) < (256 ^ k : Nat) := by
    have : 0 < 256 ^ k := Nat.pow_pos (by decide)
    omega
  have h1 := Int.emod_lt_of_pos x this
  have h2 := Int.emod_nonneg x (b := (256 ^ k : Nat)) (by omega)
  omega

end Ferret.Names
