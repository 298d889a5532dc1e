import Verif.Props.C42

/-! C43: typed range filters. -/

namespace Ferret.Props
open Ferret Ferret.Spec Ferret.Expand

/-- The whole term is a number. -/
def IsNumber (scan : Scan) (t : Term) (v : Int) : Prop := scan t = some (v, t.length)

/-- A number lies in a range whose bounds are numbers. -/
def NumInRange (scan : Scan) (r : Range) (v : Int) : Prop :=
  (∀ t l, r.lower = some t → IsNumber scan t l → if r.includeLower then l ≤ v else l < v) ∧
  (∀ t u, r.upper = some t → IsNumber scan t u → if r.includeUpper then v ≤ u else v < u)

/-- The first byte is above `9` and below 128. -/
def HighStart (t : Term) : Prop := t.headD 0 > 57 ∧ t.headD 0 < 128

open BitVector in
theorem typedLoop_spec (scan : Scan) (cond : Int → Bool) : ∀ (ts : List (Term × List Nat)), ts.Pairwise (fun a b => a.1 < b.1) →
    (∀ x ∈ ts, ¬ HighStart x.1 → ∃ s, scan x.1 = some s) → (∀ x ∈ ts, ∀ v, IsNumber scan x.1 v → x.1.headD 0 ≤ 57) →
    ∀ (num : Option Int) (len : Nat) (bv : BV), WF bv → ∃ bv', typedLoop scan cond num len bv ts = .ok bv' ∧ WF bv' ∧
      ∀ d, bitAt bv'.bits bv'.ext d = true ↔ bitAt bv.bits bv.ext d = true ∨ Selected ts (fun t => ∃ v, IsNumber scan t v ∧ cond v = true) d := by
  intro ts
  induction ts with
  | nil => intro _ _ _ num len bv h; exact ⟨bv, rfl, h, fun d => by simp [Selected]⟩
  | cons x ts ih =>
    obtain ⟨t, docs⟩ := x
    intro hs hscan hnum num len bv h
    obtain ⟨hx, hs'⟩ := List.pairwise_cons.1 hs
    have ih := ih hs' (fun y hy => hscan y (List.mem_cons_of_mem _ hy)) (fun y hy => hnum y (List.mem_cons_of_mem _ hy))
    rw [typedLoop.eq_def]
    dsimp only
    by_cases hstop : t.headD 0 > 57 ∧ t.headD 0 < 128
    · rw [if_pos hstop]
      refine ⟨bv, rfl, h, fun d => ⟨Or.inl, ?_⟩⟩
      rintro (hd | ⟨y, hy, ⟨v, hv, -⟩, -⟩)
      · exact hd
      · exfalso
        have hle := hnum y hy v hv
        rcases List.mem_cons.1 hy with rfl | hy
        · exact absurd hstop.1 (UInt8.not_lt.2 hle)
        · have hlt := hx y hy
          simp only at hlt
          -- the first byte of a later term is not smaller
          match t, hstop, y, hlt, hle with
          | [], hstop, _, _, _ => exact absurd hstop.1 (by decide)
          | a :: t, hstop, ([], _), hlt, _ => exact absurd hlt (List.not_lt_nil _)
          | a :: t, hstop, (b :: u, _), hlt, hle =>
            simp only [List.headD_cons] at hstop hle
            rcases List.cons_lt_cons_iff.1 hlt with h1 | ⟨h1, -⟩
            · simp only [UInt8.lt_iff_toNat_lt, UInt8.le_iff_toNat_le, gt_iff_lt] at *; omega
            · simp only [UInt8.lt_iff_toNat_lt, UInt8.le_iff_toNat_le, gt_iff_lt] at *; subst h1; omega
    · rw [if_neg hstop]
      obtain ⟨⟨v, n⟩, hsc⟩ := hscan (t, docs) (List.mem_cons_self ..) hstop
      simp only at hsc
      rw [hsc]
      dsimp only
      by_cases hn : n = t.length
      · rw [if_pos hn]
        have hisn : IsNumber scan t v := by unfold IsNumber; rw [hsc, hn]
        by_cases hc : cond v = true
        · rw [if_pos hc]
          obtain ⟨b1, e1, w1, g1⟩ := setDocs_spec docs bv h
          obtain ⟨b2, e2, w2, g2⟩ := ih (some v) n b1 w1
          refine ⟨b2, by rw [e1, Res.ok_bind, e2], w2, fun d => ?_⟩
          rw [g2, g1, selected_cons, Bool.or_eq_true, List.contains_iff_mem, or_assoc]
          apply or_congr Iff.rfl
          apply or_congr _ Iff.rfl
          exact ⟨fun hd => ⟨⟨v, hisn, hc⟩, hd⟩, fun hd => hd.2⟩
        · rw [if_neg hc]
          obtain ⟨b2, e2, w2, g2⟩ := ih (some v) n bv h
          refine ⟨b2, e2, w2, fun d => ?_⟩
          rw [g2, selected_cons]
          apply or_congr Iff.rfl
          refine ⟨Or.inr, ?_⟩
          rintro (⟨⟨w, hw, hcw⟩, -⟩ | h')
          · unfold IsNumber at hw hisn
            rw [hisn] at hw
            cases hw
            exact absurd hcw hc
          · exact h'
      · rw [if_neg hn]
        obtain ⟨b2, e2, w2, g2⟩ := ih (some v) n bv h
        refine ⟨b2, e2, w2, fun d => ?_⟩
        rw [g2, selected_cons]
        apply or_congr Iff.rfl
        refine ⟨Or.inr, ?_⟩
        rintro (⟨⟨w, hw, -⟩, -⟩ | h')
        · unfold IsNumber at hw
          rw [hsc] at hw
          cases hw
          exact absurd rfl hn
        · exact h'

theorem typedBounds_some (scan : Scan) (r : Range) (hl : ∀ t, r.lower = some t → ∃ v, IsNumber scan t v) (hu : ∀ t, r.upper = some t → ∃ v, IsNumber scan t v) :
    ∃ l u len, typedBounds scan r = some (l, u, len) ∧ ∀ v, typedCond r l u v = true ↔ NumInRange scan r v := by
  obtain ⟨lower, upper, il, iu⟩ := r
  simp only at hl hu
  unfold NumInRange typedBounds typedCond
  unfold IsNumber at *
  have key : ∀ {t0 : Term} {x : Int} {P : Int → Prop}, scan t0 = some (x, t0.length) → ((∀ (t : Term) (l : Int), t0 = t → scan t = some (l, t.length) → P l) ↔ P x) := by
    intro t0 x P e
    constructor
    · intro h; exact h t0 x rfl e
    · rintro h t l rfl e2; rw [e] at e2; cases e2; exact h
  cases lower with
  | none =>
    cases upper with
    | none => exact ⟨0, 0, 0, rfl, fun v => by simp⟩
    | some tu =>
      obtain ⟨u, eu⟩ := hu tu rfl
      refine ⟨0, u, tu.length, by simp [eu], fun v => ?_⟩
      cases iu <;> simp [key eu]
  | some tl =>
    obtain ⟨l, el⟩ := hl tl rfl
    cases upper with
    | none =>
      refine ⟨l, 0, tl.length, by simp [el], fun v => ?_⟩
      cases il <;> simp [key el]
    | some tu =>
      obtain ⟨u, eu⟩ := hu tu rfl
      refine ⟨l, u, tu.length, by simp [el, eu], fun v => ?_⟩
      cases il <;> cases iu <;> simp [key el, key eu]

/-- **C43 (partial).** If the bounds are numbers, a document is in the filter exactly if some term of
the field that is a number in the range has it, provided that
* terms that are numbers are not below `+.` and begin with a byte up to `9`, and
* every term from `+.` on that does not begin with a byte above `9` begins with a number.
Without the second, what was scanned before is taken for the number of the term (`c43_stale`) or an
uninitialised variable is read (`c43_uninitialised`). `scan` is any function that reads a number. -/
theorem c43_typed_range_partial (scan : Scan) (r : Range) (maxDoc : Nat) (terms : List (Term × List Nat)) (hs : Sorted (terms.map (·.1)))
    (hl : ∀ t, r.lower = some t → ∃ v, IsNumber scan t v) (hu : ∀ t, r.upper = some t → ∃ v, IsNumber scan t v)
    (hnum : ∀ x ∈ terms, ∀ v, IsNumber scan x.1 v → ¬ x.1 < [43, 46] ∧ x.1.headD 0 ≤ 57)
    (hscan : ∀ x ∈ terms, ¬ x.1 < [43, 46] → ¬ HighStart x.1 → ∃ s, scan x.1 = some s) :
    ∃ bv, trfiltGetBv scan r maxDoc (some terms) = .ok bv ∧
      ∀ d : Nat, ∃ b, BitVector.get bv d = .ok b ∧ (b = true ↔ Selected terms (fun t => ∃ v, IsNumber scan t v ∧ NumInRange scan r v) d) := by
  have hs' : terms.Pairwise fun a b => a.1 < b.1 := by
    unfold Sorted at hs
    rwa [List.pairwise_map] at hs
  obtain ⟨l, u, len, hb, hc⟩ := typedBounds_some scan r hl hu
  have hsub := List.dropWhile_sublist (fun x : Term × List Nat => strLt x.1 [43, 46]) (l := terms)
  have hge : ∀ (ts : List (Term × List Nat)), ts.Pairwise (fun a b => a.1 < b.1) → ∀ x ∈ ts.dropWhile fun x => strLt x.1 [43, 46], ¬ x.1 < [43, 46] := by
    intro ts
    induction ts with
    | nil => intro _ x hx; cases hx
    | cons y ts ih =>
      intro hp x hx
      rw [List.dropWhile_cons] at hx
      split at hx
      · exact ih (List.pairwise_cons.1 hp).2 x hx
      · rename_i hny
        have hy : ¬ y.1 < [43, 46] := fun h => hny ((strLt_iff _ _).2 h)
        rcases List.mem_cons.1 hx with rfl | hx
        · exact hy
        · exact fun hlt => hy (List.lt_trans ((List.pairwise_cons.1 hp).1 x hx) hlt)
  obtain ⟨bv, e, w, g⟩ := typedLoop_spec scan (typedCond r l u) (terms.dropWhile fun x => strLt x.1 [43, 46]) (hs'.sublist hsub)
    (fun x hx hh => hscan x (hsub.subset hx) (hge terms hs' x hx) hh) (fun x hx v hv => (hnum x (hsub.subset hx) v hv).2) none len (BitVector.newCapa maxDoc) (BitVector.wf_newCapa _)
  refine ⟨bv, ?_, fun d => ⟨_, BitVector.get_ok bv d w, ?_⟩⟩
  · unfold trfiltGetBv
    rw [hb]
    exact e
  · rw [g, show BitVector.bitAt (BitVector.newCapa maxDoc).bits (BitVector.newCapa maxDoc).ext d = false from BitVector.bitAt_replicate_zero _ _]
    simp only [Bool.false_eq_true, false_or, hc]
    have hdrop : ∀ (ts : List (Term × List Nat)), (∀ x ∈ ts, ∀ v, IsNumber scan x.1 v → ¬ x.1 < [43, 46]) →
        (Selected (ts.dropWhile fun x => strLt x.1 [43, 46]) (fun t => ∃ v, IsNumber scan t v ∧ NumInRange scan r v) d ↔ Selected ts (fun t => ∃ v, IsNumber scan t v ∧ NumInRange scan r v) d) := by
      intro ts
      induction ts with
      | nil => intro _; rfl
      | cons x ts ih =>
        intro hn
        rw [List.dropWhile_cons]
        split
        · rename_i hlt
          rw [ih fun y hy => hn y (List.mem_cons_of_mem _ hy), selected_cons]
          refine ⟨Or.inr, ?_⟩
          rintro (⟨⟨v, hv, -⟩, -⟩ | h)
          · exact absurd ((strLt_iff _ _).1 hlt) (hn x (List.mem_cons_self ..) v hv)
          · exact h
        · rfl
    exact hdrop terms fun x hx v hv => (hnum x hx v hv).1

/-- A reader of numbers: decimal digits, after an optional minus. -/
def scanDigits (t : Term) : Option (Int × Nat) :=
  let digits := fun (s : Term) => s.takeWhile fun c => decide (48 ≤ c ∧ c ≤ 57)
  let value := fun (s : Term) => s.foldl (fun (n : Int) c => 10 * n + (c.toNat - 48)) 0
  match t with
  | 45 :: s => if digits s = [] then none else some (- value (digits s), (digits s).length + 1)
  | s => if digits s = [] then none else some (value (digits s), (digits s).length)

/-- The hypotheses are met: terms `-5`, `10`, `7x`, `abc` and the range [-6, 10]. -/
example : ∃ bv, trfiltGetBv scanDigits ⟨some [45, 54], some [49, 48], true, true⟩ 8
      (some [([45, 53], [1]), ([49, 48], [2]), ([55, 120], [3]), ([97, 98, 99], [4])]) = .ok bv ∧
    (BitVector.get bv 1, BitVector.get bv 2, BitVector.get bv 3, BitVector.get bv 4) = (.ok true, .ok true, .ok false, .ok false) := by
  refine ⟨_, rfl, by decide +kernel⟩

example : (∀ x ∈ ([([45, 53], [1]), ([49, 48], [2]), ([55, 120], [3]), ([97, 98, 99], [4])] : List (Term × List Nat)), ∀ v, IsNumber scanDigits x.1 v → ¬ x.1 < [43, 46] ∧ x.1.headD 0 ≤ 57) ∧
    (∀ x ∈ ([([45, 53], [1]), ([49, 48], [2]), ([55, 120], [3]), ([97, 98, 99], [4])] : List (Term × List Nat)), ¬ x.1 < [43, 46] → ¬ HighStart x.1 → ∃ s, scanDigits x.1 = some s) := by
  constructor
  · intro x hx v hv
    simp only [List.mem_cons, List.not_mem_nil, or_false] at hx
    rcases hx with rfl | rfl | rfl | rfl
    · exact ⟨by decide, by decide⟩
    · exact ⟨by decide, by decide⟩
    · exact ⟨by decide, by decide⟩
    · exact absurd hv (by unfold IsNumber; simp [scanDigits])
  · intro x hx h1 h2
    simp only [List.mem_cons, List.not_mem_nil, or_false] at hx
    rcases hx with rfl | rfl | rfl | rfl
    · exact ⟨_, rfl⟩
    · exact ⟨_, rfl⟩
    · exact ⟨_, rfl⟩
    · exact absurd (by unfold HighStart; decide) h2

/-- The term `/a` is no number, but follows `-5`, which is in the range [-9, 20] and as long: its
document is in the filter. -/
theorem c43_stale : ∃ bv, trfiltGetBv scanDigits ⟨some [45, 57], some [50, 48], true, true⟩ 8 (some [([45, 53], [1]), ([47, 97], [2])]) = .ok bv ∧
    BitVector.get bv 2 = .ok true ∧ ∀ v, ¬ IsNumber scanDigits [47, 97] v := by
  refine ⟨_, rfl, by decide +kernel, fun v h => ?_⟩
  exact absurd h (by unfold IsNumber; simp [scanDigits])

/-- If the first term scanned is no number but as long as the last bound, a variable that was never
assigned decides: the term `/a`, the range [10, 20]. -/
theorem c43_uninitialised : trfiltGetBv scanDigits ⟨some [49, 48], some [50, 48], true, true⟩ 8 (some [([47, 97], [2])]) = .ub := by
  decide +kernel

#print axioms c43_typed_range_partial
#print axioms c43_stale
#print axioms c43_uninitialised
end Ferret.Props
