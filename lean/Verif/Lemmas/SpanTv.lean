import Verif.Lemmas.Span

/-! The enumerator of the spans of a term over a term vector. -/

namespace Ferret.Span

open Ferret.Phrase (intMax)

/-- The state: before the first move, or at a position; without the term, jumps are not allowed. -/
inductive TvR : TvE → Caps → Option Sp → List Sp → Prop
  | new {ps : List Int} {k : Caps} : ps ≠ [] → k.late = false → TvR (TvE.new (some ps)) k none (occSpans 0 ps)
  | absent {k : Caps} : k.skips = false → k.late = false → TvR (TvE.new none) k none []
  | at_ {ps : List Int} {k : Caps} {i : Nat} {p : Int} : k.late = false → i < ps.length → ps[i]? = some p →
      TvR ⟨⟨0, i + 1, some ps⟩, p, 0, i + 1, ps.length⟩ k (some ⟨0, p, p + 1⟩) (occSpans 0 (ps.drop (i + 1)))

def TvD (_e : TvE) (k : Caps) : Prop := k.late = false

theorem tvPos_spec {ps : List Int} {k : Caps} {q : Int} {i : Nat} {p : Int} (hk : k.late = false) (h : ps[i]? = some p) :
    ∃ r, tvPos ⟨⟨0, i, some ps⟩, q, 0, i, ps.length⟩ = .ok r ∧ Stepped TvR TvD k r (⟨0, p, p + 1⟩ :: occSpans 0 (ps.drop (i + 1))) := by
  refine ⟨(true, ⟨⟨0, i + 1, some ps⟩, p, 0, i + 1, ps.length⟩), ?_, rfl, ?_⟩
  · simp [tvPos, tvNextPosition, Res.ofOption, h]
  · exact .at_ hk (List.getElem?_eq_some_iff.1 h).1 h

theorem tvFirst_spec {ps : List Int} {k : Caps} (hk : k.late = false) (hps : ps ≠ []) :
    ∃ r, tvMoved (TvE.new (some ps)) (true, ⟨0, 0, some ps⟩) = .ok r ∧ Stepped TvR TvD k r (occSpans 0 ps) := by
  cases ps with
  | nil => exact absurd rfl hps
  | cons p ps => exact tvPos_spec (ps := p :: ps) (i := 0) (p := p) hk rfl

theorem tvSkip_end {e : TvE} {k : Caps} {t : Int} (hk : k.late = false) (ht : t ≠ 0) :
    ∃ r, tvOps.skipTo e t = .ok r ∧ Stepped TvR TvD k r [] := by
  refine ⟨(false, { e with tde := { e.tde with doc := intMax }, doc := intMax }), ?_, rfl, hk⟩
  simp [tvOps, tvSkipTo, ht, tvMoved]

theorem good_tv : Good tvOps TvR TvD where
  left := by
    intro s k c L h
    cases h with
    | new => simp [tvOps, TvE.new, TvTde.new, occSpans]
    | absent => simp
    | at_ => simp [tvOps, occSpans]
  cur := by
    intro s k x L h
    cases h; rfl
  early := by
    intro s k L h _
    cases h <;> exact ⟨_, rfl, rfl⟩
  next := by
    intro s k c L h _
    cases h with
    | new hps hk => exact tvFirst_spec hk hps
    | absent hs hk => exact ⟨_, rfl, rfl, hk⟩
    | @at_ ps _ i p hk hi hp =>
      by_cases h : i + 1 = ps.length
      · have e1 : occSpans 0 (ps.drop (i + 1)) = [] := by rw [h]; simp [occSpans]
        rw [e1]
        refine ⟨(false, ⟨⟨intMax, i + 1, some ps⟩, p, intMax, i + 1, ps.length⟩), ?_, rfl, hk⟩
        show (if ((i + 1 : Nat) : Int) = (ps.length : Int) then _ else _) = _
        rw [if_pos (by omega)]
        simp only [tvNext, tvMoved]
        rfl
      · obtain ⟨q, hq⟩ : ∃ q, ps[i + 1]? = some q := ⟨_, List.getElem?_eq_getElem (by omega)⟩
        have e1 : occSpans 0 (ps.drop (i + 1)) = ⟨0, q, q + 1⟩ :: occSpans 0 (ps.drop (i + 1 + 1)) := by
          rw [List.drop_eq_getElem_cons (by omega : i + 1 < ps.length)]
          rw [List.getElem?_eq_getElem (by omega), Option.some.injEq] at hq
          simp [occSpans, hq]
        rw [e1]
        show ∃ r, (if ((i + 1 : Nat) : Int) = (ps.length : Int) then _ else _) = _ ∧ _
        rw [if_neg (by omega)]
        exact tvPos_spec (i := i + 1) hk hq
  skip := by
    intro s k c L t h ho hs hb
    cases h with
    | new hps hk =>
      rename_i ps
      by_cases ht : t = 0
      · subst ht
        have e1 : (occSpans 0 ps).dropWhile (docLt 0) = occSpans 0 ps := by
          cases ps with
          | nil => rfl
          | cons p ps => rfl
        rw [e1]
        exact tvFirst_spec hk hps
      · have e1 : (occSpans 0 ps).dropWhile (docLt t) = [] := by
          have := dropWhile_occ (d := 0) (t := t) (by simp only [Before] at hb; omega) ps []
          simpa using this
        rw [e1]
        exact tvSkip_end hk ht
    | absent h' => rw [h'] at hs; cases hs
    | @at_ ps _ i p hk hi hp =>
      have e1 : (occSpans 0 (ps.drop (i + 1))).dropWhile (docLt t) = [] := by
        have := dropWhile_occ (d := 0) (t := t) (by simpa only [Before] using hb) (ps.drop (i + 1)) []
        simpa using this
      rw [e1]
      exact tvSkip_end hk (by simp only [Before] at hb; omega)
  late := by
    intro s k h hk
    rw [show k.late = false from h] at hk; cases hk

end Ferret.Span
