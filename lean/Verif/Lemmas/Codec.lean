import Verif.Spec.Bytes

/-!
Readers and the bytes they consume: a reader is *exact* for some bytes when it reads them whatever
follows, and raises EOF when they are cut short.
-/

namespace Ferret

structure Exact {α : Type} (rd : Rd α) (e : List Byte) (x : α) : Prop where
  full : ∀ rest, rd (e ++ rest) = .ok (x, rest)
  cut : ∀ k, k < e.length → rd (e.take k) = .raise .eof

theorem Exact.whole {α : Type} {rd : Rd α} {e : List Byte} {x : α} (h : Exact rd e x) : rd e = .ok (x, []) := by
  have := h.full []
  rwa [List.append_nil] at this

theorem Exact.pure {α : Type} (x : α) : Exact (fun l => .ok (x, l)) [] x := ⟨fun _ => rfl, fun k h => by simp at h⟩

theorem Exact.bind {α β : Type} {rd : Rd α} {f : α → Rd β} {e e' : List Byte} {x : α} {y : β} (h : Exact rd e x) (h' : Exact (f x) e' y) :
    Exact (fun l => rd l >>= fun r => f r.1 r.2) (e ++ e') y := by
  constructor
  · intro rest
    rw [List.append_assoc, h.full, Res.ok_bind, h'.full]
  · intro k hk
    rw [List.length_append] at hk
    rw [List.take_append]
    by_cases hlt : k < e.length
    · rw [show k - e.length = 0 by omega, List.take_zero, List.append_nil, h.cut k hlt]
      rfl
    · rw [List.take_of_length_le (by omega), h.full, Res.ok_bind]
      exact h'.cut _ (by omega)

theorem Exact.map {α β : Type} {rd : Rd α} {e : List Byte} {x : α} (h : Exact rd e x) (g : α → β) :
    Exact (fun l => rd l >>= fun r => .ok (g r.1, r.2)) e (g x) := by
  have := h.bind (f := fun a l => .ok (g a, l)) (Exact.pure (g x))
  rwa [List.append_nil] at this

theorem exact_byte (b : Byte) : Exact rdByte [b] b := by
  constructor
  · intro rest; rfl
  · intro k hk
    have : k = 0 := by simp at hk; exact hk
    subst this; rfl

theorem exact_bytes (s : List Byte) : Exact (rdBytes s.length) s s := by
  constructor
  · intro rest; exact rdBytes_append s rest
  · intro k hk
    unfold rdBytes
    rw [if_neg (by rw [List.length_take]; omega)]

theorem rdV_cut (bits : Nat) : ∀ (fuel shift acc n k : Nat), n < 128 ^ fuel → n * 2 ^ shift < 2 ^ bits → (n = 0 → shift < bits) → k < (vbytes fuel n).length →
    rdV bits shift acc ((vbytes fuel n).take k) = .raise .eof := by
  intro fuel
  induction fuel with
  | zero => intro shift acc n k _ _ _ h; simp [vbytes] at h
  | succ f ih =>
    intro shift acc n k hn hb h0 hk
    cases k with
    | zero => rfl
    | succ k =>
    have hs : shift < bits := by
      by_cases hz : n = 0
      · exact h0 hz
      · apply Classical.byContradiction
        intro hge
        have h1 : 2 ^ bits ≤ 2 ^ shift := Nat.pow_le_pow_right (by decide) (by omega)
        have h2 : 1 * 2 ^ shift ≤ n * 2 ^ shift := Nat.mul_le_mul_right _ (by omega)
        omega
    simp only [vbytes] at hk ⊢
    by_cases hgt : n > 127
    · rw [if_pos hgt] at hk ⊢
      simp only [List.length_cons] at hk
      rw [List.take_succ_cons]
      unfold rdV
      rw [if_neg (by omega), byteOf_toNat _ (by omega)]
      simp only []
      rw [if_pos (by omega)]
      have hp7 : 2 ^ (shift + 7) = 128 * 2 ^ shift := by rw [Nat.pow_add, Nat.mul_comm]
      have hdiv : n / 128 * (128 * 2 ^ shift) ≤ n * 2 ^ shift := by
        rw [← Nat.mul_assoc]; exact Nat.mul_le_mul_right _ (Nat.div_mul_le_self n 128)
      exact ih _ _ _ _ (by rw [Nat.pow_succ] at hn; omega) (by rw [hp7]; omega) (fun h => by omega) (by omega)
    · rw [if_neg hgt] at hk
      simp at hk

theorem exact_vint (n : Nat) (h : n < 2 ^ 32) : Exact rdVint (vint n) n :=
  ⟨fun rest => rdVint_vint n h rest,
   fun k hk => rdV_cut 32 10 0 0 n k (Nat.lt_of_lt_of_le h (by decide)) (by omega) (fun _ => by decide) hk⟩

theorem exact_vll (n : Nat) (h : n < 2 ^ 64) : Exact rdVll (vint n) n :=
  ⟨fun rest => rdVll_vint n h rest,
   fun k hk => rdV_cut 64 10 0 0 n k (Nat.lt_of_lt_of_le h (by decide)) (by omega) (fun _ => by decide) hk⟩

theorem beBytes_length : ∀ (k n : Nat), (beBytes k n).length = k := by
  intro k
  induction k with
  | zero => intro n; rfl
  | succ k ih => intro n; simp [beBytes, ih]

theorem rdBE_short : ∀ (k acc : Nat) (l : List Byte), l.length < k → rdBE k acc l = .raise .eof := by
  intro k
  induction k with
  | zero => intro acc l h; omega
  | succ k ih =>
    intro acc l h
    cases l with
    | nil => rfl
    | cons b bs =>
      simp only [rdBE, rdByte, Res.ok_bind]
      exact ih _ _ (by simp at h; omega)

theorem exact_be (k n : Nat) (h : n < 256 ^ k) : Exact (rdBE k 0) (beBytes k n) n := by
  constructor
  · intro rest; rw [rdBE_beBytes k 0 n rest h, Nat.zero_mul, Nat.zero_add]
  · intro j hj
    rw [beBytes_length] at hj
    exact rdBE_short _ _ _ (by rw [List.length_take, beBytes_length]; omega)

theorem exact_string (s : List Byte) (h : s.length < 2 ^ 32) : Exact rdString (vstring s) s :=
  (exact_vint s.length h).bind (exact_bytes s)

/-- A signed 32-bit number written as an unsigned one of variable length. -/
theorem exact_svint (x : Int) (h1 : -2 ^ 31 ≤ x) (h2 : x < 2 ^ 31) :
    Exact (fun l => rdVint l >>= fun r => .ok (toS 4 r.1, r.2)) (vint (toU 4 x)) x := by
  obtain ⟨e1, e2⟩ := toS_toU 4 x (by omega) (by omega)
  have := (exact_vint (toU 4 x) (Nat.lt_of_lt_of_le e2 (by decide))).map (toS 4)
  rwa [e1] at this

theorem exact_many {α : Type} (rd : Rd α) (enc : α → List Byte) : ∀ (xs : List α), (∀ x ∈ xs, Exact rd (enc x) x) →
    Exact (rdMany rd xs.length) (xs.map enc).flatten xs := by
  intro xs
  induction xs with
  | nil => intro _; exact Exact.pure []
  | cons x xs ih =>
    intro h
    have h1 := h x (by simp)
    have h2 := ih (fun y hy => h y (by simp [hy]))
    simp only [List.map_cons, List.flatten_cons]
    exact h1.bind (f := fun a l => rdMany rd xs.length l >>= fun r' => .ok (a :: r'.1, r'.2)) (h2.map (x :: ·))

end Ferret
