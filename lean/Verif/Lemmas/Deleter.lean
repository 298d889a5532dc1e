import Verif.Model.Deleter
import Verif.Lemmas.Names
import Verif.Lemmas.Disk
import Verif.Spec.Names

namespace Ferret.Names
open Ferret Ferret.Spec

theorem digitmap_digit (d : Nat) (h : d < 36) : digitmap[d]? = some (digit d) := by
  have : ∀ d : Fin 36, digitmap[d.val]? = some (digit d.val) := by decide
  exact this ⟨d, h⟩

theorem numeralF_more (base : Nat) (hb : 2 ≤ base) : ∀ (k j n : Nat), n < base ^ (k + 1) → k ≤ j → numeralF base j n = numeralF base k n := by
  intro k
  induction k with
  | zero =>
    intro j n hn _
    simp only [Nat.zero_add, Nat.pow_one] at hn
    cases j with
    | zero => rfl
    | succ j => simp only [numeralF, if_pos hn, Nat.mod_eq_of_lt hn]
  | succ k ih =>
    intro j n hn hj
    obtain ⟨j, rfl⟩ : ∃ i, j = i + 1 := ⟨j - 1, by omega⟩
    simp only [numeralF]
    split
    · rfl
    · rw [ih j (n / base) (by rw [Nat.div_lt_iff_lt_mul (by omega), ← Nat.pow_succ]; exact hn) (by omega)]

theorem numeral_step (base n : Nat) (hb : 2 ≤ base) : numeral base n = if n < base then [digit n] else numeral base (n / base) ++ [digit (n % base)] := by
  unfold numeral
  cases n with
  | zero => simp only [numeralF, Nat.zero_mod]; rw [if_pos (by omega)]
  | succ n =>
    simp only [numeralF]
    split
    · rfl
    · have hlt : (n + 1) / base < n + 1 := Nat.div_lt_self (by omega) hb
      rw [numeralF_more base hb ((n + 1) / base) n _ ?_ (by omega)]
      have := Nat.lt_pow_self hb (n := (n + 1) / base)
      exact Nat.lt_of_lt_of_le this (Nat.pow_le_pow_right (by omega) (by omega))

theorem digitsLoop_numeral (base : Nat) (hb : 2 ≤ base) (hb' : base ≤ 36) : ∀ (k u : Nat) (acc : Name), u < base ^ k → 0 < k →
    digitsLoop base k u acc = .ok (numeral base u ++ acc) := by
  intro k
  induction k with
  | zero => intro u acc _ h; omega
  | succ k ih =>
    intro u acc hu _
    have hm : u % base < base := Nat.mod_lt _ (by omega)
    simp only [digitsLoop, digitmap_digit _ (by omega : u % base < 36), Res.ofOption, Res.ok_bind]
    rw [numeral_step base u hb]
    by_cases h0 : u < base
    · rw [if_pos (Nat.div_eq_of_lt h0), if_pos h0, Nat.mod_eq_of_lt h0]; rfl
    · have hd : u / base ≠ 0 := by
        have := (Nat.div_pos_iff (a := u) (b := base)).mpr ⟨by omega, by omega⟩
        omega
      rw [if_neg hd, if_neg h0]
      have hk : 0 < k := by
        cases k with
        | zero => simp at hu; omega
        | succ k => omega
      rw [ih (u / base) _ (by rw [Nat.div_lt_iff_lt_mul (by omega), ← Nat.pow_succ]; exact hu) hk]
      simp

theorem u64ToStr36_numeral (n u : Nat) (hu : u < 2 ^ 64) (hn : 14 ≤ n) : u64ToStr36 n u = .ok (numeral 36 u) := by
  unfold u64ToStr36
  rw [digitsLoop_numeral 36 (by decide) (by decide) (n - 1) u [] ?_ (by omega), List.append_nil]
  refine Nat.lt_of_lt_of_le hu (Nat.le_trans (?_ : 2 ^ 64 ≤ 36 ^ 13) (Nat.pow_le_pow_right (by decide) (by omega)))
  decide

theorem numeral36 (u : Nat) (hu : u < 2 ^ 64) : (∀ c ∈ numeral 36 u, IsDigit c) ∧ value 36 0 (numeral 36 u) = u ∧ (numeral 36 u).length ≤ 13 ∧ numeral 36 u ≠ [] := by
  obtain ⟨ds, h1, h2, h3, h4, h5⟩ := u64ToStr36_spec 100 u hu (by decide)
  rw [u64ToStr36_numeral 100 u hu (by decide)] at h1
  cases h1
  exact ⟨h2, h3, h5, h4⟩

theorem decimal_numeral (n : Nat) (h : n < 2 ^ 31) : decimal n = .ok (numeral 10 n) := by
  unfold decimal
  rw [digitsLoop_numeral 10 (by decide) (by decide) 10 n [] (Nat.lt_of_lt_of_le h (by decide)) (by decide), List.append_nil]

theorem numeral10 (n : Nat) (h : n < 2 ^ 31) : (∀ c ∈ numeral 10 n, 48 ≤ c.toNat ∧ c.toNat ≤ 57) ∧ value 10 0 (numeral 10 n) = n ∧ (numeral 10 n).length ≤ 10 := by
  obtain ⟨ds, h1, h2, h3, h4⟩ := decimal_spec n h
  rw [decimal_numeral n h] at h1
  cases h1
  exact ⟨h2, h3, h4⟩

theorem numeral_ne_nil (base n : Nat) (hb : 2 ≤ base) : numeral base n ≠ [] := by
  rw [numeral_step base n hb]
  split <;> simp

end Ferret.Names

namespace Ferret.Dlr
open Ferret Ferret.Spec Ferret.Names Ferret.Sis

theorem splitLast_none {c : Byte} : ∀ {n : Name}, c ∉ n → splitLast c n = none := by
  intro n
  induction n with
  | nil => intro _; rfl
  | cons x xs ih =>
    intro h
    simp only [List.mem_cons, not_or] at h
    simp only [splitLast, ih h.2]
    rw [if_neg (fun e => h.1 e.symm)]

theorem splitLast_append {c : Byte} : ∀ (a : Name) {b : Name}, c ∉ b → splitLast c (a ++ c :: b) = some (a, b) := by
  intro a
  induction a with
  | nil =>
    intro b h
    simp only [List.nil_append, splitLast, splitLast_none h]
    simp
  | cons x xs ih =>
    intro b h
    simp only [List.cons_append, splitLast, ih h]

theorem atoi_spec : ∀ (ds : Name) (a : Nat), (∀ c ∈ ds, 48 ≤ c.toNat ∧ c.toNat ≤ 57) → value 10 a ds < 2 ^ 31 → atoi a ds = .ok (value 10 a ds) := by
  intro ds
  induction ds with
  | nil => intro a _ _; rfl
  | cons c cs ih =>
    intro a h hv
    have hc := h c (by simp)
    have hd : dval c = c.toNat - 48 := by unfold dval; rw [if_pos hc.2]
    rw [value_cons, hd] at hv ⊢
    have := value_mono 10 (by decide) cs (a * 10 + (c.toNat - 48))
    simp only [atoi]
    rw [if_pos hc, if_pos (by omega), ih _ (fun x hx => h x (by simp [hx])) hv]

/-- Segment names: an underscore and digits. -/
theorem segName_cons {n : Name} (h : isSegName n = true) : ∃ ds, n = 95 :: ds ∧ (∀ c ∈ ds, IsDigit c) ∧ ds ≠ [] := by
  unfold isSegName at h
  split at h
  · rename_i ds
    simp only [Bool.and_eq_true, Bool.not_eq_true', List.isEmpty_eq_false_iff, List.all_eq_true, Bool.or_eq_true, decide_eq_true_eq] at h
    refine ⟨ds, rfl, fun c hc => ?_, h.1⟩
    have := h.2 c hc
    unfold IsDigit
    simp only [UInt8.le_iff_toNat_le] at this
    exact this
  · cases h

theorem segName_nodot {n : Name} (h : isSegName n = true) : (46 : Byte) ∉ n := by
  obtain ⟨ds, rfl, hd, -⟩ := segName_cons h
  intro hm
  rcases List.mem_cons.mp hm with h | h
  · cases h
  · exact digit_ne_dot hd h

theorem dropGen_seg {n : Name} (h : isSegName n = true) : dropGen n = n := by
  obtain ⟨ds, rfl, hd, -⟩ := segName_cons h
  simp only [dropGen, splitLast_none (digit_ne_underscore hd)]

theorem dropGen_gen {n u : Name} (h : isSegName n = true) (hu : (95 : Byte) ∉ u) : dropGen (n ++ 95 :: u) = n := by
  obtain ⟨ds, rfl, hd, -⟩ := segName_cons h
  simp only [List.cons_append, dropGen, splitLast_append ds hu]

end Ferret.Dlr
