import Verif.Model.Basic

/-!
Byte strings: positional reads and writes, and the wire formats of numbers and strings,
independent of buffering.
-/

namespace Ferret

abbrev Byte := UInt8

/-- `s` written over `l` at position `p`. -/
def writeAt (l : List Byte) (p : Nat) (s : List Byte) : List Byte :=
  l.take p ++ s ++ l.drop (p + s.length)

/-- The `n` bytes of `l` from position `p`. -/
def slice (l : List Byte) (p n : Nat) : List Byte := (l.drop p).take n

/-- The low byte of a number. -/
def byteOf (n : Nat) : Byte := UInt8.ofNat n

/-! ### Numbers of variable length: seven bits a byte, low bits first, high bit = more -/

/-- At most `fuel` bytes. -/
def vbytes : Nat → Nat → List Byte
  | 0, _ => []
  | fuel + 1, n => if n > 127 then byteOf (n % 128 + 128) :: vbytes fuel (n / 128) else [byteOf n]

/-- A number below 2^70. -/
def vint (n : Nat) : List Byte := vbytes 10 n

/-- `k` bytes, high byte first. -/
def beBytes : Nat → Nat → List Byte
  | 0, _ => []
  | k + 1, n => byteOf (n / 256 ^ k) :: beBytes k n

/-- A signed number as its two's complement of `8 * k` bits. -/
def toU (k : Nat) (x : Int) : Nat := (x % (256 ^ k : Nat)).toNat

/-- Inverse of `toU` on the range of the signed type. -/
def toS (k : Nat) (n : Nat) : Int := if 2 * n < 256 ^ k then n else (n : Int) - (256 ^ k : Nat)

/-- A string with its length. -/
def vstring (s : List Byte) : List Byte := vint s.length ++ s

/-! ### Reading them: a reader consumes a prefix of the bytes -/

abbrev Rd (α : Type) := List Byte → Res (α × List Byte)

/-- One byte; reading past the end raises EOF. -/
def rdByte : Rd Byte
  | [] => .raise .eof
  | b :: bs => .ok (b, bs)

/-- `n` bytes. -/
def rdBytes (n : Nat) : Rd (List Byte) := fun l =>
  if n ≤ l.length then .ok (l.take n, l.drop n) else .raise .eof

/-- A number of variable length, in a register of `bits` bits; shifting by more is undefined. -/
def rdV (bits : Nat) : (shift acc : Nat) → Rd Nat
  | _, _, [] => .raise .eof
  | shift, acc, b :: bs =>
    if shift ≥ bits then .ub
    else
      let acc' := acc ||| ((b.toNat % 128) <<< shift) % 2 ^ bits
      if b.toNat ≥ 128 then rdV bits (shift + 7) acc' bs else .ok (acc', bs)

def rdVint : Rd Nat := rdV 32 0 0
def rdVll : Rd Nat := rdV 64 0 0

def rdBE : Nat → (acc : Nat) → Rd Nat
  | 0, acc, l => .ok (acc, l)
  | k + 1, acc, l => rdByte l >>= fun r => rdBE k (acc * 256 + r.1.toNat) r.2

def rdString : Rd (List Byte) := fun l => rdVint l >>= fun r => rdBytes r.1 r.2

/-- Read something `n` times. -/
def rdMany {α : Type} (rd : Rd α) : Nat → Rd (List α)
  | 0, l => .ok ([], l)
  | n + 1, l => rd l >>= fun r => rdMany rd n r.2 >>= fun r' => .ok (r.1 :: r'.1, r'.2)

/-! ### Round trips -/

theorem byteOf_toNat (n : Nat) (h : n < 256) : (byteOf n).toNat = n := by
  simp [byteOf, UInt8.toNat_ofNat']; omega

theorem byteOf_toNat_mod (n : Nat) : (byteOf n).toNat = n % 256 := by
  simp [byteOf, UInt8.toNat_ofNat']

theorem rdV_vbytes (bits : Nat) : ∀ (fuel shift acc n : Nat) (rest : List Byte), n < 128 ^ fuel → acc < 2 ^ shift → n * 2 ^ shift < 2 ^ bits → (n = 0 → shift < bits) → 0 < fuel →
    rdV bits shift acc (vbytes fuel n ++ rest) = .ok (acc + n * 2 ^ shift, rest) := by
  intro fuel
  induction fuel with
  | zero => intro shift acc n rest _ _ _ _ h; omega
  | succ f ih =>
    intro shift acc n rest hn hacc hb h0 _
    have hs : shift < bits := by
      by_cases hz : n = 0
      · exact h0 hz
      · apply Classical.byContradiction
        intro hge
        have h1 : 2 ^ bits ≤ 2 ^ shift := Nat.pow_le_pow_right (by decide) (by omega)
        have h2 : 1 * 2 ^ shift ≤ n * 2 ^ shift := Nat.mul_le_mul_right _ (by omega)
        omega
    have hor : ∀ x, x * 2 ^ shift < 2 ^ bits → acc ||| ((x <<< shift) % 2 ^ bits) = acc + x * 2 ^ shift := by
      intro x hx
      rw [Nat.shiftLeft_eq, Nat.mod_eq_of_lt hx, Nat.or_comm, ← Nat.shiftLeft_eq, ← Nat.shiftLeft_add_eq_or_of_lt hacc, Nat.add_comm]
    unfold vbytes
    by_cases hgt : n > 127
    · rw [if_pos hgt, List.cons_append]
      have hf : 0 < f := by
        cases f with
        | zero => simp at hn; omega
        | succ f => omega
      unfold rdV
      rw [if_neg (by omega), byteOf_toNat _ (by omega)]
      simp only []
      rw [if_pos (by omega), show (n % 128 + 128) % 128 = n % 128 by omega]
      have hlow : (n % 128) * 2 ^ shift < 2 ^ bits :=
        Nat.lt_of_le_of_lt (Nat.mul_le_mul_right _ (Nat.mod_le _ _)) hb
      rw [hor _ hlow]
      have hp7 : 2 ^ (shift + 7) = 128 * 2 ^ shift := by rw [Nat.pow_add, Nat.mul_comm]
      have hdiv : n / 128 * (128 * 2 ^ shift) ≤ n * 2 ^ shift := by
        rw [← Nat.mul_assoc]; exact Nat.mul_le_mul_right _ (Nat.div_mul_le_self n 128)
      rw [ih (shift + 7) _ (n / 128) rest (by rw [Nat.pow_succ] at hn; omega) ?_ (by rw [hp7]; omega) (fun h => by omega) hf]
      · rw [hp7]
        congr 2
        have : n = n % 128 + n / 128 * 128 := by omega
        calc acc + n % 128 * 2 ^ shift + n / 128 * (128 * 2 ^ shift)
            = acc + (n % 128 + n / 128 * 128) * 2 ^ shift := by rw [Nat.add_mul, Nat.mul_assoc (n / 128)]; omega
          _ = acc + n * 2 ^ shift := by rw [← this]
      · rw [hp7]
        have : n % 128 ≤ 127 := by omega
        have := Nat.mul_le_mul_right (2 ^ shift) this
        omega
    · rw [if_neg hgt, List.cons_append, List.nil_append]
      unfold rdV
      rw [if_neg (by omega), byteOf_toNat _ (by omega)]
      simp only []
      rw [if_neg (by omega), show n % 128 = n by omega, hor _ hb]

/-- Any 32-bit number. -/
theorem rdVint_vint (n : Nat) (h : n < 2 ^ 32) (rest : List Byte) : rdVint (vint n ++ rest) = .ok (n, rest) := by
  have := rdV_vbytes 32 10 0 0 n rest (Nat.lt_of_lt_of_le h (by decide)) (by decide) (by omega) (fun _ => by decide) (by decide)
  simpa [rdVint, vint] using this

/-- Any 64-bit number. -/
theorem rdVll_vint (n : Nat) (h : n < 2 ^ 64) (rest : List Byte) : rdVll (vint n ++ rest) = .ok (n, rest) := by
  have := rdV_vbytes 64 10 0 0 n rest (Nat.lt_of_lt_of_le h (by decide)) (by decide) (by omega) (fun _ => by decide) (by decide)
  simpa [rdVll, vint] using this

theorem rdBE_beBytes : ∀ (k acc n : Nat) (rest : List Byte), n < 256 ^ k → rdBE k acc (beBytes k n ++ rest) = .ok (acc * 256 ^ k + n, rest) := by
  have key : ∀ (k acc n : Nat) (rest : List Byte), rdBE k acc (beBytes k n ++ rest) = .ok (acc * 256 ^ k + n % 256 ^ k, rest) := by
    intro k
    induction k with
    | zero => intro acc n rest; simp [rdBE, beBytes, Nat.mod_one]
    | succ k ih =>
      intro acc n rest
      simp only [beBytes, List.cons_append, rdBE, rdByte, Res.ok_bind, byteOf_toNat_mod]
      rw [ih]
      congr 2
      have h1 : n % 256 ^ (k + 1) = (n / 256 ^ k % 256) * 256 ^ k + n % 256 ^ k := by
        rw [Nat.pow_succ, Nat.mod_mul, Nat.add_comm, Nat.mul_comm]
      rw [h1, Nat.pow_succ, Nat.add_mul, Nat.mul_assoc, Nat.mul_comm 256]
      omega
  intro k acc n rest h
  rw [key, Nat.mod_eq_of_lt h]

theorem rdBytes_append (s rest : List Byte) : rdBytes s.length (s ++ rest) = .ok (s, rest) := by
  unfold rdBytes
  rw [if_pos (by simp)]
  simp

/-- Any string shorter than 2^32. -/
theorem rdString_vstring (s : List Byte) (h : s.length < 2 ^ 32) (rest : List Byte) : rdString (vstring s ++ rest) = .ok (s, rest) := by
  unfold rdString vstring
  rw [List.append_assoc, rdVint_vint _ h, Res.ok_bind, rdBytes_append]

theorem toS_toU (k : Nat) (x : Int) (h1 : -(256 ^ k : Nat) ≤ 2 * x) (h2 : 2 * x < (256 ^ k : Nat)) : toS k (toU k x) = x ∧ toU k x < 256 ^ k := by
  unfold toS toU
  have hp : (0 : Int) < (256 ^ k : Nat) := by
    have : 0 < 256 ^ k := Nat.pow_pos (by decide)
    omega
  generalize (256 ^ k : Nat) = m at *
  by_cases hx : 0 ≤ x
  · rw [Int.emod_eq_of_lt hx (by omega)]
    refine ⟨?_, by omega⟩
    rw [if_pos (by omega)]; omega
  · have : x % (m : Int) = x + m := by
      rw [← Int.add_emod_right, Int.emod_eq_of_lt (by omega) (by omega)]
    rw [this]
    refine ⟨?_, by omega⟩
    rw [if_neg (by omega)]; omega

theorem vbytes_length_le : ∀ (fuel n : Nat), (vbytes fuel n).length ≤ fuel := by
  intro fuel
  induction fuel with
  | zero => intro n; simp [vbytes]
  | succ f ih =>
    intro n; unfold vbytes; split
    · simp only [List.length_cons]; have := ih (n / 128); omega
    · simp

end Ferret
