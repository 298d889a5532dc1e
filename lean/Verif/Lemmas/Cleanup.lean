import Verif.Model.Cleanup

namespace Ferret.Cleanup
open Ferret

def Inv (st : St) (items : List Nat) : Prop := st.size = items.length ∧ ∃ k, st.slots = items.map some ++ List.replicate k none

theorem register_inv {st : St} {items : List Nat} (h : Inv st items) (p : Nat) : ∃ st', register st p = .ok st' ∧ Inv st' (items ++ [p]) := by
  obtain ⟨h1, k, h2⟩ := h
  have hlen : st.slots.length = items.length + k := by rw [h2]; simp
  have key : ∃ k', (if st.slots.length = 0 then List.replicate 16 none else if st.slots.length ≤ st.size then st.slots ++ List.replicate st.slots.length none else st.slots) =
      items.map some ++ List.replicate (k' + 1) none := by
    by_cases h0 : st.slots.length = 0
    · rw [if_pos h0]
      have : items = [] := List.eq_nil_of_length_eq_zero (by omega)
      subst this
      exact ⟨15, rfl⟩
    · rw [if_neg h0]
      by_cases hc : st.slots.length ≤ st.size
      · rw [if_pos hc]
        have hk : k = 0 := by omega
        subst hk
        refine ⟨items.length - 1, ?_⟩
        rw [hlen, h2, show items.length - 1 + 1 = items.length by omega]
        simp
      · rw [if_neg hc]
        exact ⟨k - 1, by rw [h2, show k - 1 + 1 = k by omega]⟩
  obtain ⟨k', hk⟩ := key
  unfold register
  dsimp only
  rw [hk, if_pos (by rw [h1]; simp)]
  refine ⟨_, rfl, by simp [h1], k', ?_⟩
  show (items.map some ++ List.replicate (k' + 1) none).set st.size (some p) = _
  rw [h1, List.set_append_right _ _ (by simp), List.length_map, Nat.sub_self, List.replicate_succ]
  simp

theorem registerAll_inv : ∀ (ps : List Nat) {st : St} {items : List Nat}, Inv st items → ∃ st', registerAll st ps = .ok st' ∧ Inv st' (items ++ ps) := by
  intro ps
  induction ps with
  | nil => intro st items h; exact ⟨st, rfl, by simpa using h⟩
  | cons p ps ih =>
    intro st items h
    obtain ⟨st1, a1, a2⟩ := register_inv h p
    obtain ⟨st2, b1, b2⟩ := ih a2
    exact ⟨st2, by rw [registerAll, a1, Res.ok_bind, b1], by simpa using b2⟩

theorem loop_inv (act : Nat → List Nat) (regs : List Nat) : ∀ (fuel : Nat) {st : St} {items : List Nat} {i : Nat}, Inv st items → i ≤ items.length →
    items = regs ++ (items.take i).flatMap act →
    loop act fuel st i (items.take i) = .ok none ∨ ∃ l, loop act fuel st i (items.take i) = .ok (some l) ∧ l = regs ++ l.flatMap act := by
  intro fuel
  induction fuel with
  | zero => intro st items i _ _ _; exact Or.inl rfl
  | succ fuel ih =>
    intro st items i h hi hq
    unfold loop
    by_cases hs : i < st.size
    · rw [if_pos hs]
      have hl : i < items.length := by rw [← h.1]; exact hs
      obtain ⟨k, hk⟩ := h.2
      have : st.slots[i]? = some (some items[i]) := by
        rw [hk, List.getElem?_append_left (by simpa using hl), List.getElem?_map, List.getElem?_eq_getElem hl]
        rfl
      rw [this]
      dsimp only
      obtain ⟨st1, a1, a2⟩ := registerAll_inv (act items[i]) h
      rw [a1, Res.ok_bind]
      have ht : (items ++ act items[i]).take (i + 1) = items.take i ++ [items[i]] := by
        rw [List.take_append_of_le_length (by omega), List.take_succ_eq_append_getElem hl]
      have := ih (i := i + 1) a2 (by rw [List.length_append]; omega) (by
        rw [ht, List.flatMap_append, ← List.append_assoc, ← hq]
        simp)
      rw [ht] at this
      exact this
    · rw [if_neg hs]
      have he : items.take i = items := List.take_of_length_le (by rw [← h.1]; omega)
      rw [he] at hq ⊢
      exact Or.inr ⟨items, rfl, hq⟩

theorem loop_ends (act : Nat → List Nat) (hact : ∀ p, act p = []) : ∀ (fuel : Nat) {st : St} {items : List Nat} {i : Nat} (log : List Nat), Inv st items → i ≤ items.length → items.length < i + fuel →
    loop act fuel st i log ≠ .ok none := by
  intro fuel
  induction fuel with
  | zero => intro st items i log _ h1 h2; omega
  | succ fuel ih =>
    intro st items i log h hi hf
    unfold loop
    by_cases hs : i < st.size
    · rw [if_pos hs]
      split
      · next p hp =>
        rw [hact]
        exact ih _ h (by have := h.1; omega) (by omega)
      · nofun
    · rw [if_neg hs]; nofun

end Ferret.Cleanup
