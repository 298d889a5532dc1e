import Verif.Model.Expand
import Verif.Spec.Strings

/-! C41: wildcard matching. -/

namespace Ferret.Props
open Ferret Ferret.Spec Ferret.Expand

theorem mem_suffixesFromEnd : ∀ (t xt : List Byte), xt ∈ suffixesFromEnd t ↔ ∃ r, t = r ++ xt
  | [], xt => by
    simp only [suffixesFromEnd, List.mem_singleton]
    constructor
    · rintro rfl; exact ⟨[], rfl⟩
    · rintro ⟨r, e⟩; exact (List.nil_eq_append_iff.1 e).2
  | x :: t, xt => by
    simp only [suffixesFromEnd, List.mem_append, List.mem_singleton, mem_suffixesFromEnd t xt]
    constructor
    · rintro (⟨r, rfl⟩ | rfl)
      · exact ⟨x :: r, rfl⟩
      · exact ⟨[], rfl⟩
    · rintro ⟨r, e⟩
      cases r with
      | nil => exact Or.inr e.symm
      | cons y r => simp only [List.cons_append, List.cons.injEq] at e; exact Or.inl ⟨r, e.2⟩

theorem glob_cons {c : Byte} {p t : List Byte} : Glob (c :: p) t ↔ ∃ r t', t = r ++ t' ∧ fills c r ∧ Glob p t' := by
  constructor
  · intro h
    cases h with
    | @cons _ _ r t' h1 h2 => exact ⟨r, t', rfl, h1, h2⟩
  · rintro ⟨r, t', rfl, h1, h2⟩
    exact .cons h1 h2

theorem fills_star (r : List Byte) : fills 42 r := by simp [fills]

/-- **C41.** Whether a pattern matches a text is whether the text results from it by replacing each
`?` by one byte, each `*` by any string and every other byte by itself. -/
theorem c41_wildcard : ∀ (p t : List Byte), wcMatch p t = true ↔ Glob p t
  | [], [] => by simp only [wcMatch, List.all_nil, true_iff]; exact .nil
  | [], x :: t => by simp only [wcMatch, Bool.false_eq_true, false_iff]; intro h; cases h
  | c :: p, [] => by
    have ih := c41_wildcard p []
    rw [wcMatch, List.all_cons, Bool.and_eq_true, beq_iff_eq, glob_cons]
    have ih' : p.all (· == 42) = true ↔ Glob p [] := by rw [← ih, wcMatch]
    rw [ih']
    constructor
    · rintro ⟨rfl, h⟩; exact ⟨[], [], rfl, fills_star _, h⟩
    · rintro ⟨r, t', e, h1, h2⟩
      obtain ⟨rfl, rfl⟩ := List.nil_eq_append_iff.1 e
      refine ⟨?_, h2⟩
      unfold fills at h1
      split at h1
      · simp at h1
      · split at h1
        · assumption
        · cases h1
  | c :: p, x :: t => by
    rw [wcMatch, glob_cons]
    by_cases h63 : c = 63
    · subst h63
      simp only [if_true]
      rw [c41_wildcard p t]
      constructor
      · intro h; exact ⟨[x], t, rfl, by simp [fills], h⟩
      · rintro ⟨r, t', e, h1, h2⟩
        simp only [fills, if_true] at h1
        match r, h1 with
        | [y], _ => simp only [List.cons_append, List.nil_append, List.cons.injEq] at e; rw [e.2]; exact h2
    · rw [if_neg h63]
      by_cases h42 : c = 42
      · subst h42
        simp only [if_true, List.any_eq_true]
        constructor
        · rintro ⟨xt, hm, hw⟩
          obtain ⟨r, hr⟩ := (mem_suffixesFromEnd _ _).1 hm
          exact ⟨r, xt, hr, fills_star r, (c41_wildcard p xt).1 hw⟩
        · rintro ⟨r, t', e, -, h2⟩
          exact ⟨t', (mem_suffixesFromEnd _ _).2 ⟨r, e⟩, (c41_wildcard p t').2 h2⟩
      · rw [if_neg h42]
        by_cases hx : c = x
        · subst hx
          simp only [ne_eq, not_true_eq_false, if_false]
          rw [c41_wildcard p t]
          constructor
          · intro h; exact ⟨[c], t, rfl, by simp [fills, h63, h42], h⟩
          · rintro ⟨r, t', e, h1, h2⟩
            simp only [fills, h63, h42, if_false] at h1
            subst h1
            simp only [List.cons_append, List.nil_append, List.cons.injEq, true_and] at e
            rw [e]; exact h2
        · rw [if_pos hx]
          simp only [Bool.false_eq_true, false_iff]
          rintro ⟨r, t', e, h1, -⟩
          simp only [fills, h63, h42, if_false] at h1
          subst h1
          simp only [List.cons_append, List.nil_append, List.cons.injEq] at e
          exact hx e.1.symm

/-- `f*b?r` matches `foobar`, not `foobr`. -/
example : Glob [102, 42, 98, 63, 114] [102, 111, 111, 98, 97, 114] ∧ ¬ Glob [102, 42, 98, 63, 114] [102, 111, 111, 98, 114] := by
  rw [← c41_wildcard, ← c41_wildcard]
  decide

#print axioms c41_wildcard
end Ferret.Props
