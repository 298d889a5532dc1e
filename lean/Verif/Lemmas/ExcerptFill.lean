import Verif.Lemmas.ExcerptWrite

namespace Ferret.Excerpt
open Ferret Ferret.Spec

theorem fillFrom_length : ∀ (l : List (Int × Int)) (p : Int × Int), (fillFrom p l).length = l.length := by
  intro l
  induction l with
  | nil => intro p; rfl
  | cons o l ih => intro p; simp [fillFrom, ih]

theorem fillIn_length (l : List (Int × Int)) : (fillIn l).length = l.length := by
  cases l with
  | nil => rfl
  | cons o l => simp [fillIn, fillFrom_length]

theorem fillFrom_get : ∀ (l : List (Int × Int)) (p : Int × Int) (i : Nat) (o : Int × Int), l[i]? = some o →
    ∃ q, (p :: fillFrom p l)[i]? = some q ∧
      (fillFrom p l)[i]? = some (if o.1 = 0 then q.1 else o.1, if o.2 = 0 then q.2 else o.2) := by
  intro l
  induction l with
  | nil => intro p i o h; simp at h
  | cons x l ih =>
    intro p i o h
    cases i with
    | zero => simp at h; subst h; exact ⟨p, rfl, rfl⟩
    | succ i =>
      obtain ⟨q, h1, h2⟩ := ih (if x.1 = 0 then p.1 else x.1, if x.2 = 0 then p.2 else x.2) i o (by simpa using h)
      exact ⟨q, by simpa [fillFrom] using h1, by simpa [fillFrom] using h2⟩

theorem fillIn_succ {l : List (Int × Int)} {i : Nat} {o : Int × Int} (h : l[i + 1]? = some o) :
    ∃ q, (fillIn l)[i]? = some q ∧ (fillIn l)[i + 1]? = some (if o.1 = 0 then q.1 else o.1, if o.2 = 0 then q.2 else o.2) := by
  cases l with
  | nil => simp at h
  | cons x l =>
    obtain ⟨q, h1, h2⟩ := fillFrom_get l x i o (by simpa using h)
    exact ⟨q, h1, by simpa [fillIn] using h2⟩

/-- Offsets of the positions of a text: `(0, 0)` if the position has no term, and else those of its term, in the
text and after those of earlier positions. -/
structure TokensFine (text : List Byte) (offsets : List (Int × Int)) : Prop where
  inside : ∀ (i : Nat) o, offsets[i]? = some o → o = (0, 0) ∨ (0 ≤ o.1 ∧ o.1 ≤ o.2 ∧ 0 < o.2 ∧ o.2 ≤ text.length)
  forward : ∀ (i j : Nat) a b, i < j → offsets[i]? = some a → offsets[j]? = some b → b ≠ (0, 0) → a.2 ≤ b.1

theorem fill_inv {text : List Byte} {offsets : List (Int × Int)} (h : TokensFine text offsets) : ∀ (i : Nat) a, (fillIn offsets)[i]? = some a →
    (0 ≤ a.1 ∧ a.1 ≤ a.2 ∧ a.2 ≤ text.length) ∧ (∀ o, offsets[i]? = some o → o ≠ (0, 0) → a = o) ∧
      ∀ (j : Nat) b, i < j → offsets[j]? = some b → b ≠ (0, 0) → a.2 ≤ b.1 := by
  intro i
  induction i with
  | zero =>
    intro a ha
    have ha' : offsets[0]? = some a := by
      cases offsets with
      | nil => simp [fillIn] at ha
      | cons o l => simpa [fillIn] using ha
    refine ⟨?_, ?_, fun j b hj hb hne => h.forward 0 j a b hj ha' hb hne⟩
    · rcases h.inside 0 a ha' with rfl | h1
      · simp
      · omega
    · intro o ho _
      rw [ha'] at ho
      cases ho
      rfl
  | succ i ih =>
    intro a ha
    have hlt : i + 1 < offsets.length := by rw [← fillIn_length]; exact (List.getElem?_eq_some_iff.1 ha).1
    have ho : offsets[i + 1]? = some offsets[i + 1] := List.getElem?_eq_getElem hlt
    generalize offsets[i + 1] = o at ho
    obtain ⟨q, q1, q2⟩ := fillIn_succ ho
    rw [q2] at ha
    simp only [Option.some.injEq] at ha
    obtain ⟨i1, _, i3⟩ := ih q q1
    by_cases hz : o = (0, 0)
    · subst hz
      simp only [if_true] at ha
      subst ha
      refine ⟨i1, ?_, fun j b hj hb hne => i3 j b (by omega) hb hne⟩
      intro x hx hne
      rw [ho] at hx
      cases hx
      exact absurd rfl hne
    · have hq := i3 (i + 1) o (by omega) ho hz
      rcases h.inside _ o ho with h0 | h1
      · exact absurd h0 hz
      have hao : a = o := by
        rw [← ha]
        apply Prod.ext
        · simp only
          split <;> omega
        · simp only
          rw [if_neg (by omega)]
      subst hao
      refine ⟨by omega, ?_, fun j b hj hb hne => h.forward (i + 1) j a b hj ho hb hne⟩
      intro x hx _
      rw [ho] at hx
      cases hx
      rfl

theorem fill_ok {text : List Byte} {offsets : List (Int × Int)} (h : TokensFine text offsets) : FillOk text.length (fillIn offsets) := by
  constructor
  · intro i a b ha hb
    have hlt : i + 1 < offsets.length := by rw [← fillIn_length]; exact (List.getElem?_eq_some_iff.1 hb).1
    have ho : offsets[i + 1]? = some offsets[i + 1] := List.getElem?_eq_getElem hlt
    generalize offsets[i + 1] = o at ho
    obtain ⟨q, q1, q2⟩ := fillIn_succ ho
    rw [ha] at q1
    cases q1
    obtain ⟨i1, i2, i3⟩ := fill_inv h i a ha
    by_cases hz : o = (0, 0)
    · subst hz
      rw [q2] at hb
      simp only [if_true, Option.some.injEq] at hb
      subst hb
      omega
    · have hb' := (fill_inv h (i + 1) b hb).2.1 o ho hz
      have := i3 (i + 1) o (by omega) ho hz
      rcases h.inside _ o ho with h0 | h1
      · exact absurd h0 hz
      · rw [hb']; omega
  · intro i a ha
    have := (fill_inv h i a ha).1
    omega

end Ferret.Excerpt
