import Verif.Model.Array

/-! C54: a growable array stores what was written and stays inside its allocation. -/

namespace Ferret.Props
open Ferret Ferret.Spec Ferret.Arr

variable {V : Type}

/-- The least of `room`, 2·`room`, 4·`room`, … (32 of them) above `n`. -/
def doubledPast : Nat → Nat → Nat → Nat
  | 0, room, _ => room
  | fuel + 1, room, n => if room ≤ n then doubledPast fuel (room * 2) n else room

/-- The cells of an array with `room` cells after its list of values changes: they double until
there is more room than values. -/
def roomAfter (room : Nat) (old new : List (Option V)) : Nat :=
  if new.length > old.length then doubledPast 32 room new.length else room

/-- What a caller must see to: no pop or shift of an empty array, sizes that fit, and no removal
from an array all but one of whose cells are used. -/
def Proper (room : Nat) (xs : List (Option V)) : ArrOp V → Prop
  | .set i _ => fromEnd xs.length i < 2 ^ 27 - 1
  | .get _ => True
  | .push _ | .unshift _ => xs.length < 2 ^ 27 - 1
  | .pop | .shift => xs ≠ []
  | .remove i | .delete i => 0 ≤ i → i < xs.length → xs.length + 1 < room

/-- Every call of a sequence is proper. -/
def ProperRun (room : Nat) (xs : List (Option V)) : List (ArrOp V) → Prop
  | [] => True
  | op :: ops => Proper room xs op ∧
    ProperRun (roomAfter room xs (arrStep xs op).1) (arrStep xs op).1 ops

/-- The array `a` holds `xs`: beyond its size all cells are NULL. -/
structure AryHolds (a : Ary V) (room : Nat) (xs : List (Option V)) : Prop where
  sz : a.sz = xs.length
  capa : a.capa = room
  lt : xs.length < room
  small : room < maxCapa
  cells : a.cells = xs ++ List.replicate (room - xs.length) none

theorem growCapa_spec : ∀ (fuel n c : Nat), 1 ≤ c → c < maxCapa → n < 2 ^ 27 → n < c * 2 ^ fuel →
    growCapa (fuel + 1) n c = .ok (doubledPast fuel c n) ∧ n < doubledPast fuel c n ∧
      c ≤ doubledPast fuel c n ∧ doubledPast fuel c n < maxCapa := by
  intro fuel
  induction fuel with
  | zero =>
    intro n c h1 h2 h3 h4
    simp only [growCapa, doubledPast]
    rw [if_neg (by omega)]
    exact ⟨rfl, by omega, by omega, h2⟩
  | succ f ih =>
    intro n c h1 h2 h3 h4
    rw [growCapa, doubledPast]
    by_cases h : c ≤ n
    · rw [if_pos h, if_pos h, if_pos (by simp only [maxCapa] at *; omega)]
      have := ih n (c * 2) (by omega) (by simp only [maxCapa] at *; omega) h3 (by
        rw [Nat.pow_succ] at h4
        rw [Nat.mul_assoc, Nat.mul_comm 2]
        exact h4)
      exact ⟨this.1, this.2.1, by omega, this.2.2.2⟩
    · rw [if_neg h, if_neg h]
      exact ⟨rfl, by omega, by omega, h2⟩

theorem growCapa_fuel : ∀ (fuel n c : Nat) (r : Nat), growCapa fuel n c = .ok r →
    growCapa (fuel + 1) n c = .ok r := by
  intro fuel
  induction fuel with
  | zero => intro n c r h; cases h
  | succ f ih =>
    intro n c r h
    rw [growCapa] at h ⊢
    split at h
    · rename_i hc
      rw [if_pos hc]
      split at h
      · rename_i hm
        rw [if_pos hm]
        exact ih _ _ _ h
      · cases h
    · rename_i hc
      rw [if_neg hc]
      exact h

theorem doubledPast_stop : ∀ (fuel c n : Nat), n < c → doubledPast fuel c n = c := by
  intro fuel c n h
  cases fuel with
  | zero => rfl
  | succ f => rw [doubledPast, if_neg (by omega)]

/-- The room doubles until it is enough. -/
theorem growCapa_room (n c : Nat) (h1 : 1 ≤ c) (h2 : c < maxCapa) (h3 : n < 2 ^ 27) :
    growCapa 32 n c = .ok (doubledPast 32 c n) ∧ n < doubledPast 32 c n ∧
      c ≤ doubledPast 32 c n ∧ doubledPast 32 c n < maxCapa := by
  have hp : n < c * 2 ^ 31 := by
    have : 1 * 2 ^ 31 ≤ c * 2 ^ 31 := Nat.mul_le_mul_right _ h1
    omega
  have a := growCapa_spec 31 n c h1 h2 h3 hp
  have b := growCapa_spec 32 n c h1 h2 h3 (by rw [Nat.pow_succ, ← Nat.mul_assoc]; omega)
  have := growCapa_fuel _ _ _ _ a.1
  rw [this] at b
  have e := Res.ok.inj b.1
  rw [← e]
  exact ⟨a.1, a.2⟩

theorem take_append_replicate (xs : List (Option V)) (n : Nat) :
    (xs ++ List.replicate n none).take xs.length = xs := by
  simp

/-- Growing to hold index `i`: the new cells hold NULL. -/
theorem resize_spec (junk : Option V) {a : Ary V} {room : Nat} {xs : List (Option V)}
    (h : AryHolds a room xs) (i : Nat) (hi : i + 1 < 2 ^ 27) :
    ∃ b, resize junk a i = .ok b ∧ AryHolds b
      (if i + 1 > xs.length then doubledPast 32 room (i + 1) else room)
      (xs ++ List.replicate (i + 1 - xs.length) none) := by
  obtain ⟨h1, h2, h3, h4, h5⟩ := h
  unfold resize
  dsimp only
  by_cases hg : i + 1 > xs.length
  · rw [if_pos (by omega), if_pos hg]
    by_cases hc : i + 1 ≥ a.capa
    · rw [if_pos hc]
      obtain ⟨g1, g2, g3, g4⟩ := growCapa_room (i + 1) a.capa (by omega) (by omega) hi
      rw [g1]
      simp only [Res.ok_bind]
      refine ⟨_, rfl, ?_⟩
      rw [h2] at *
      refine ⟨by simp; omega, rfl, by simp; omega, g4, ?_⟩
      simp only [h5, h1]
      rw [List.append_assoc, List.take_left' rfl, List.append_assoc, List.replicate_append_replicate]
      congr 2
      simp
      omega
    · rw [if_neg hc]
      simp only [Res.ok_bind]
      refine ⟨_, rfl, ?_⟩
      rw [doubledPast_stop _ _ _ (by omega)]
      refine ⟨by simp; omega, h2, by simp; omega, h4, ?_⟩
      simp only [h5]
      rw [List.append_assoc, List.replicate_append_replicate]
      congr 2
      simp
      omega
  · rw [if_neg (by omega), if_neg hg]
    refine ⟨a, rfl, ?_⟩
    have : i + 1 - xs.length = 0 := by omega
    rw [this]
    simp only [List.replicate_zero, List.append_nil]
    exact ⟨h1, h2, h3, h4, h5⟩

theorem store_spec {a : Ary V} {room : Nat} {xs : List (Option V)} (h : AryHolds a room xs) (i : Nat)
    (v : Option V) (hi : i < xs.length) :
    ∃ c, store a.cells i v = .ok c ∧ AryHolds { a with cells := c } room (xs.set i v) := by
  obtain ⟨h1, h2, h3, h4, h5⟩ := h
  refine ⟨a.cells.set i v, ?_, ?_⟩
  · unfold store
    rw [if_pos]
    rw [h5]
    simp
    omega
  · refine ⟨by simpa using h1, h2, by simpa using h3, h4, ?_⟩
    simp only [h5]
    rw [List.set_append_left _ _ hi]
    simp

theorem load_spec {a : Ary V} {room : Nat} {xs : List (Option V)} (h : AryHolds a room xs) (i : Nat)
    (hi : i < xs.length) : load a.cells i = .ok (xs[i]?).join := by
  unfold load
  rw [h.cells, List.getElem?_append_left hi, List.getElem?_eq_getElem hi]
  rfl

theorem move_down {xs : List (Option V)} {k i : Nat} (hi : i < xs.length) :
    ∀ n, n + i + 1 ≤ xs.length + k → xs.length ≤ n + i →
    move (xs ++ List.replicate k none) i (i + 1) n =
      .ok (xs.eraseIdx i ++ List.replicate (n + i + 1 - xs.length) none ++
        (List.replicate (xs.length + k - (n + i)) none)) := by
  intro n h1 h2
  unfold move
  rw [if_pos (by simp only [List.length_append, List.length_replicate]; omega)]
  congr 1
  rw [List.eraseIdx_eq_take_drop_succ, List.take_append_of_le_length (by omega),
    List.drop_append_of_le_length (by omega), List.take_append]
  rw [List.take_of_length_le (l := xs.drop (i + 1)) (by simp only [List.length_drop]; omega), List.drop_append,
    List.drop_eq_nil_of_le (i := i + n) (by omega)]
  simp only [List.take_replicate, List.drop_replicate, List.length_drop, List.nil_append, List.append_assoc]
  rw [show min (n - (xs.length - (i + 1))) k = n + i + 1 - xs.length by omega,
    show k - (i + n - xs.length) = xs.length + k - (n + i) by omega]

theorem remove_spec {a : Ary V} {room : Nat} {xs : List (Option V)} (h : AryHolds a room xs) (i : Int)
    (hp : 0 ≤ i → i < xs.length → xs.length + 1 < room) :
    ∃ b, remove a i = .ok (b, if i < 0 then none else (xs[i.toNat]?).join) ∧
      AryHolds b room (if i < 0 then xs else xs.eraseIdx i.toNat) := by
  unfold remove
  by_cases hi : i ≥ 0 ∧ i < a.sz
  · have hn : ¬ i < 0 := by omega
    rw [if_pos hi, if_neg hn, if_neg hn]
    obtain ⟨h1, h2, h3, h4, h5⟩ := id h
    have hlt : i.toNat < xs.length := by omega
    have hr := hp hi.1 (by omega)
    rw [load_spec h _ hlt, Res.ok_bind, h5, h1, move_down hlt _ (by omega) (by omega), Res.ok_bind]
    refine ⟨_, rfl, ?_⟩
    have hl := List.length_eraseIdx_of_lt hlt
    refine ⟨by simp [hl], h2, by omega, h4, ?_⟩
    simp only
    rw [List.append_assoc, List.replicate_append_replicate]
    congr 2
    omega
  · rw [if_neg hi]
    by_cases hn : i < 0
    · rw [if_pos hn, if_pos hn]
      exact ⟨a, rfl, h⟩
    · rw [if_neg hn, if_neg hn]
      have : xs.length ≤ i.toNat := by have := h.sz; omega
      rw [List.getElem?_eq_none this, List.eraseIdx_of_length_le this]
      exact ⟨a, rfl, h⟩

theorem set_pad (xs : List (Option V)) (v : Option V) :
    (xs ++ List.replicate (xs.length + 1 - xs.length) none).set xs.length v = xs ++ [v] := by
  have : xs.length + 1 - xs.length = 1 := by omega
  rw [this]
  simp

theorem length_putAt (xs : List (Option V)) (i : Nat) (v : Option V) :
    (putAt xs i v).length = max xs.length (i + 1) := by
  simp [putAt]
  omega

theorem length_pad (xs : List (Option V)) (i : Nat) :
    (xs ++ List.replicate (i + 1 - xs.length) (none : Option V)).length = max xs.length (i + 1) := by
  simp
  omega

theorem roomAfter_same {room : Nat} {xs ys : List (Option V)} (h : ys.length ≤ xs.length) :
    roomAfter room xs ys = room := by
  unfold roomAfter
  rw [if_neg (by omega)]

/-- Every proper call does what it says and leaves the array holding the list. -/
theorem arrStep_spec (junk : Option V) {a : Ary V} {room : Nat} {xs : List (Option V)}
    (h : AryHolds a room xs) (op : ArrOp V) (hp : Proper room xs op) :
    ∃ b, step junk a op = .ok (b, (arrStep xs op).2) ∧
      AryHolds b (roomAfter room xs (arrStep xs op).1) (arrStep xs op).1 := by
  cases op with
  | set i v =>
    simp only [step, arrStep, setI]
    simp only [Proper] at hp
    rw [h.sz]
    rw [show (if i < 0 then i + (xs.length : Int) else i) = fromEnd xs.length i from rfl]
    by_cases hn : fromEnd xs.length i < 0
    · rw [if_pos hn, if_pos hn]
      exact ⟨a, rfl, by rw [roomAfter_same (Nat.le_refl _)]; exact h⟩
    · rw [if_neg hn, if_neg hn]
      obtain ⟨b, hb, hh⟩ := resize_spec junk h (fromEnd xs.length i).toNat (by omega)
      obtain ⟨c, hc, hh'⟩ := store_spec hh (fromEnd xs.length i).toNat v (by
        rw [length_pad]; omega)
      rw [hb, Res.ok_bind, hc, Res.ok_bind]
      refine ⟨_, rfl, ?_⟩
      have e : roomAfter room xs (putAt xs (fromEnd xs.length i).toNat v) =
          (if (fromEnd xs.length i).toNat + 1 > xs.length then
            doubledPast 32 room ((fromEnd xs.length i).toNat + 1) else room) := by
        unfold roomAfter
        rw [length_putAt]
        by_cases hg : (fromEnd xs.length i).toNat + 1 > xs.length
        · rw [if_pos hg, if_pos (by omega)]
          congr 1
          omega
        · rw [if_neg hg, if_neg (by omega)]
      simp only
      rw [e]
      exact hh'
  | get i =>
    simp only [step, arrStep, getI]
    rw [h.sz]
    rw [show (if i < 0 then i + (xs.length : Int) else i) = fromEnd xs.length i from rfl]
    by_cases hn : fromEnd xs.length i < 0
    · rw [if_pos hn, if_neg (by omega), Res.ok_bind]
      exact ⟨a, rfl, by rw [roomAfter_same (Nat.le_refl _)]; exact h⟩
    · rw [if_neg hn]
      refine ⟨a, ?_, by rw [roomAfter_same (Nat.le_refl _)]; exact h⟩
      by_cases hl : fromEnd xs.length i < xs.length
      · rw [if_pos ⟨by omega, hl⟩, load_spec h _ (by omega), Res.ok_bind]
      · rw [if_neg (by omega), Res.ok_bind, List.getElem?_eq_none (by omega)]
        rfl
  | push v =>
    simp only [step, arrStep, push]
    simp only [Proper] at hp
    rw [h.sz]
    obtain ⟨b, hb, hh⟩ := resize_spec junk h xs.length (by omega)
    obtain ⟨c, hc, hh'⟩ := store_spec hh xs.length v (by simp)
    rw [hb, Res.ok_bind, hc, Res.ok_bind, Res.ok_bind]
    refine ⟨_, rfl, ?_⟩
    rw [set_pad, if_pos (by omega)] at hh'
    unfold roomAfter
    rw [if_pos (by simp)]
    simpa using hh'
  | pop =>
    simp only [step, arrStep, pop]
    simp only [Proper] at hp
    have hl : 0 < xs.length := List.length_pos_iff.2 hp
    obtain ⟨n, hn⟩ : ∃ n, xs.length = n + 1 := ⟨xs.length - 1, by omega⟩
    rw [h.sz, hn]
    simp only
    obtain ⟨c, hc, hh⟩ := store_spec h n none (by omega)
    rw [load_spec h n (by omega), Res.ok_bind, hc, Res.ok_bind, Res.ok_bind]
    refine ⟨_, by rw [List.getLast?_eq_getElem?, hn]; rfl, ?_⟩
    rw [roomAfter_same (by simp)]
    obtain ⟨h1, h2, h3, h4, h5⟩ := hh
    have hd : xs.set n none = xs.dropLast ++ [none] := by
      have hx := List.dropLast_concat_getLast hp
      have hld : xs.dropLast.length = n := by simp [hn]
      have := congrArg (fun l => l.set n none) hx
      rw [← this, List.set_append_right _ _ (by omega), hld]
      simp
    refine ⟨by simp [hn], h2, by simp [hn]; have := h.lt; omega, h4, ?_⟩
    simp only at h5 ⊢
    rw [h5, hd, List.append_assoc]
    congr 1
    rw [show [none] = List.replicate 1 (none : Option V) from rfl, List.replicate_append_replicate]
    congr 1
    simp
    have := h.lt
    omega
  | unshift v =>
    simp only [step, arrStep, unshift]
    simp only [Proper] at hp
    rw [h.sz]
    obtain ⟨b, hb, hh⟩ := resize_spec junk h xs.length (by omega)
    rw [hb, Res.ok_bind]
    rw [if_pos (by omega)] at hh
    obtain ⟨h1, h2, h3, h4, h5⟩ := hh
    simp only [List.length_append, List.length_replicate] at h3
    have hm : move b.cells 1 0 xs.length = .ok ((b.cells.take 1 ++ xs) ++
        List.replicate (doubledPast 32 room (xs.length + 1) - (xs.length + 1)) none) := by
      unfold move
      have hlen : b.cells.length = doubledPast 32 room (xs.length + 1) := by
        rw [h5]; simp; omega
      rw [if_pos (by omega)]
      congr 1
      congr 1
      · congr 1
        rw [h5, List.drop_zero, List.append_assoc, List.take_left' rfl]
      · rw [h5, List.append_assoc, List.replicate_append_replicate, List.drop_append,
          List.drop_eq_nil_of_le (by omega)]
        simp only [List.drop_replicate, List.nil_append, List.length_append, List.length_replicate]
        congr 1
        omega
    rw [hm, Res.ok_bind]
    have hlen : b.cells.length = doubledPast 32 room (xs.length + 1) := by
      rw [h5]; simp; omega
    obtain ⟨x, hx⟩ : ∃ x, b.cells.take 1 = [x] := by
      match hcc : b.cells with
      | [] => rw [hcc] at hlen; simp at hlen; omega
      | x :: _ => exact ⟨x, rfl⟩
    rw [hx]
    unfold store
    rw [if_pos (by simp), Res.ok_bind, Res.ok_bind]
    refine ⟨_, rfl, ?_⟩
    unfold roomAfter
    rw [if_pos (by simp)]
    refine ⟨?_, h2, by simp; omega, h4, ?_⟩
    · simp [h1]
    · simp
  | shift =>
    simp only [step, arrStep, shift]
    simp only [Proper] at hp
    obtain ⟨y, ys, rfl⟩ : ∃ y ys, xs = y :: ys := by
      cases xs with
      | nil => exact absurd rfl hp
      | cons y ys => exact ⟨y, ys, rfl⟩
    rw [load_spec h 0 (by simp), Res.ok_bind, h.sz]
    simp only [List.length_cons]
    obtain ⟨h1, h2, h3, h4, h5⟩ := h
    simp only [List.length_cons] at h3
    have hm : ∃ t, move a.cells 0 1 ys.length = .ok (ys ++ t :: List.replicate (room - (ys.length + 1)) none) := by
      rw [h5]
      unfold move
      rw [if_pos (by simp; omega)]
      simp only [List.take_zero, List.nil_append, Nat.zero_add, List.length_cons]
      rw [show (y :: ys ++ List.replicate (room - (ys.length + 1)) (none : Option V)).drop 1 =
        ys ++ List.replicate (room - (ys.length + 1)) none from rfl, List.take_left' rfl]
      rw [List.drop_append_of_le_length (by simp)]
      obtain ⟨t, ht⟩ : ∃ t, (y :: ys).drop ys.length = [t] := by
        match hd : (y :: ys).drop ys.length with
        | [] => have := congrArg List.length hd; simp at this
        | [t] => exact ⟨t, rfl⟩
        | _ :: _ :: _ => have := congrArg List.length hd; simp at this
      rw [ht]
      exact ⟨t, rfl⟩
    obtain ⟨t, hm⟩ := hm
    rw [hm, Res.ok_bind]
    unfold store
    rw [if_pos (by simp), Res.ok_bind, Res.ok_bind]
    refine ⟨_, rfl, ?_⟩
    rw [roomAfter_same (by simp)]
    refine ⟨rfl, h2, by simp; omega, h4, ?_⟩
    simp only [List.tail_cons]
    rw [List.set_append_right _ _ (by omega)]
    congr 1
    rw [Nat.sub_self]
    obtain ⟨n, hn⟩ : ∃ n, room - ys.length = n + 1 := ⟨room - ys.length - 1, by omega⟩
    rw [hn, show room - (ys.length + 1) = n by omega]
    rfl
  | remove i =>
    simp only [step, arrStep]
    obtain ⟨b, hb, hh⟩ := remove_spec h i hp
    rw [hb, Res.ok_bind]
    refine ⟨b, ?_, ?_⟩
    · split <;> rfl
    · split
      · rename_i hi
        rw [if_pos hi] at hh
        rw [roomAfter_same (Nat.le_refl _)]
        exact hh
      · rename_i hi
        rw [if_neg hi] at hh
        rw [roomAfter_same (List.length_eraseIdx_le _ _)]
        exact hh
  | delete i =>
    simp only [step, arrStep]
    obtain ⟨b, hb, hh⟩ := remove_spec h i hp
    rw [hb, Res.ok_bind]
    refine ⟨b, ?_, ?_⟩
    · split <;> rfl
    · split
      · rename_i hi
        rw [if_pos hi] at hh
        rw [roomAfter_same (Nat.le_refl _)]
        exact hh
      · rename_i hi
        rw [if_neg hi] at hh
        rw [roomAfter_same (List.length_eraseIdx_le _ _)]
        exact hh

theorem new_holds (c : Int) (hc : c < 2 ^ 28) :
    ∃ a : Ary V, new c = .ok a ∧ AryHolds a (if c ≤ 0 then 8 else c.toNat) [] := by
  unfold new
  dsimp only
  have : (if c ≤ 0 then 8 else c.toNat) < maxCapa ∧ 0 < (if c ≤ 0 then 8 else c.toNat) := by
    unfold maxCapa
    split <;> omega
  rw [if_pos this.1]
  exact ⟨_, rfl, rfl, rfl, this.2, this.1, by simp⟩

theorem arrRun_spec (junk : Option V) : ∀ (ops : List (ArrOp V)) (a : Ary V) (room : Nat) (xs : List (Option V)),
    AryHolds a room xs → ProperRun room xs ops →
    ∃ b room', run junk a ops = .ok (b, (arrRun xs ops).2) ∧ AryHolds b room' (arrRun xs ops).1 := by
  intro ops
  induction ops with
  | nil =>
    intro a room xs h _
    exact ⟨a, room, rfl, h⟩
  | cons op ops ih =>
    intro a room xs h hp
    obtain ⟨b, hb, hh⟩ := arrStep_spec junk h op hp.1
    obtain ⟨c, r', hc, hh'⟩ := ih _ _ _ hh hp.2
    refine ⟨c, r', ?_, hh'⟩
    simp only [run, hb, Res.ok_bind, hc, arrRun]

/-- **C54 (partial).** Every sequence of proper calls on a new array gives what the list of values
says, without touching memory outside the allocation; afterwards its size is the length of the list
and each index holds the value of the list. Missing: removing from an array all but one of whose
cells are used, pop and shift of an empty array; see the theorems below. -/
theorem c54_array_partial (junk : Option V) (c : Int) (hc : c < 2 ^ 28) (ops : List (ArrOp V))
    (hp : ProperRun (if c ≤ 0 then 8 else c.toNat) [] ops) :
    ∃ a b : Ary V, new c = .ok a ∧ run junk a ops = .ok (b, (arrRun [] ops).2) ∧
      b.sz = (arrRun [] ops).1.length ∧
      ∀ i : Nat, i < b.sz → b.cells[i]? = (arrRun [] ops).1[i]? := by
  obtain ⟨a, ha, h⟩ := new_holds (V := V) c hc
  obtain ⟨b, r', hb, hh⟩ := arrRun_spec junk ops a _ [] h hp
  refine ⟨a, b, ha, hb, hh.sz, fun i hi => ?_⟩
  rw [hh.cells, List.getElem?_append_left (by have := hh.sz; omega)]

/-- Without removals the only conditions are those a caller can check: sizes that fit and no pop
or shift of an empty array. -/
def Careful (xs : List (Option V)) : List (ArrOp V) → Prop
  | [] => True
  | op :: ops =>
    (match op with
     | .set i _ => fromEnd xs.length i < 2 ^ 27 - 1
     | .get _ => True
     | .push _ | .unshift _ => xs.length < 2 ^ 27 - 1
     | .pop | .shift => xs ≠ []
     | .remove i | .delete i => i < 0 ∨ (xs.length : Int) ≤ i) ∧
    Careful (arrStep xs op).1 ops

theorem Careful.proper : ∀ (ops : List (ArrOp V)) (xs : List (Option V)) (room : Nat),
    Careful xs ops → ProperRun room xs ops := by
  intro ops
  induction ops with
  | nil => intro _ _ _; trivial
  | cons op ops ih =>
    intro xs room h
    refine ⟨?_, ih _ _ h.2⟩
    have := h.1
    cases op <;> simp only [Proper] at this ⊢ <;> first | exact this | (intro h1 h2; omega)

/-- **C54 (partial), without removals.** -/
theorem c54_no_removal_partial (junk : Option V) (c : Int) (hc : c < 2 ^ 28) (ops : List (ArrOp V))
    (hp : Careful [] ops) :
    ∃ a b : Ary V, new c = .ok a ∧ run junk a ops = .ok (b, (arrRun [] ops).2) ∧
      b.sz = (arrRun [] ops).1.length ∧
      ∀ i : Nat, i < b.sz → b.cells[i]? = (arrRun [] ops).1[i]? :=
  c54_array_partial junk c hc ops (Careful.proper _ _ _ hp)

/-- Ten pushes, three removals, setting a far index, a negative one, one out of range, shifting. -/
example : ∃ a b : Ary Nat, new 0 = .ok a ∧
    run (some 99) a ((List.range 10).map (fun i => .push (some i)) ++
      [.remove 3, .delete 0, .remove (-1), .set 20 (some 77), .set (-1) (some 78), .set (-40) none,
       .shift, .unshift (some 5), .pop, .get 15, .get 0, .get (-1), .get 100]) =
      .ok (b, List.replicate 10 .done ++ [.value (some 3), .freed (some 0), .value none, .done, .done,
        .indexError, .value (some 1), .done, .value (some 78), .value none, .value (some 5),
        .value none, .value none]) ∧ b.sz = 20 ∧
    ProperRun 8 [] ((List.range 10).map (fun i => ArrOp.push (some i)) ++
      [.remove 3, .delete 0, .remove (-1), .set 20 (some 77), .set (-1) (some 78), .set (-40) none,
       .shift, .unshift (some 5), .pop, .get 15, .get 0, .get (-1), .get 100]) := by
  refine ⟨_, _, rfl, rfl, rfl, ?_⟩
  simp [ProperRun, Proper, arrStep, roomAfter, doubledPast, fromEnd, putAt, List.range, List.range.loop,
    List.replicate]

/-- **C54 fails: removing any element from an array with one cell to spare reads past the
allocation**, whatever the array holds and however it came about. -/
theorem c54_remove_ub (a : Ary V) (room : Nat) (xs : List (Option V)) (h : AryHolds a room xs)
    (hfull : xs.length + 1 = room) (i : Int) (h0 : 0 ≤ i) (hi : i < xs.length) : remove a i = .ub := by
  unfold remove
  have := h.sz
  rw [if_pos (by omega), load_spec h _ (by omega), Res.ok_bind]
  unfold move
  rw [if_neg, Res.ub_bind]
  rw [h.cells]
  simp
  omega

/-- Seven pushes onto a new array, then a removal. -/
theorem c54_remove_wrong (junk : Option Nat) :
    ∃ a : Ary Nat, new 0 = .ok a ∧
      run junk a ((List.range 7).map (fun i => .push (some i)) ++ [.remove 0]) = .ub := by
  exact ⟨_, rfl, rfl⟩

/-- **C54 fails: pop and shift of an empty array** go below the array. -/
theorem c54_empty_wrong (a : Ary V) (room : Nat) (h : AryHolds a room []) :
    pop a = .ub ∧ shift a = .ub := by
  have hs : a.sz = 0 := h.sz
  refine ⟨by unfold pop; rw [hs], ?_⟩
  unfold shift
  cases hl : load a.cells 0 with
  | ok v => simp only [Res.ok_bind]; rw [hs]
  | raise e => unfold load at hl; cases h' : a.cells[0]? <;> rw [h'] at hl <;> cases hl
  | ub => rfl

#print axioms c54_array_partial
#print axioms c54_no_removal_partial
#print axioms c54_remove_ub
#print axioms c54_remove_wrong
#print axioms c54_empty_wrong
end Ferret.Props
