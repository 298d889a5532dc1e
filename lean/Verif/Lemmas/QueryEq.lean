import Verif.Spec.Queries

namespace Ferret.QEq
open Ferret Ferret.Spec Ferret.RamDir

theorem andR_true {a : Bool} {b : Res Bool} (h : andR a b = .ok true) : a = true ∧ b = .ok true := by
  unfold andR at h
  cases a with
  | true => exact ⟨rfl, h⟩
  | false => simp at h

theorem spanAnd_true {f : Option (List Byte)} {o : Query} {r : Res Bool} (h : spanAnd f o r = .ok true) :
    o.spanField = .ok f ∧ r = .ok true := by
  unfold spanAnd at h
  obtain ⟨g, h1, h2⟩ := Res.bind_eq_ok.1 h
  obtain ⟨h3, h4⟩ := andR_true h2
  have : f = g := by simpa using h3
  subst this
  exact ⟨h1, h4⟩

theorem parts_at {m : Memory} {p r : Query → Prop} {k : Filter → Prop} {q : Query} (h : Parts m p r k q) : m.query q.hd.addr = q := by
  cases q <;> exact h.1

theorem partsF_at {m : Memory} {p r : Query → Prop} {k : Filter → Prop} {f : Filter} (h : PartsF m p r k f) : m.filter f.addr = f := by
  cases f <;> exact h.1

theorem number_of_eq {x y : F32} (h : F32.eq x y = true) : number x = number y := by
  unfold F32.eq at h
  simp only [Bool.and_eq_true, Bool.or_eq_true, beq_iff_eq] at h
  unfold number
  rcases h.2 with rfl | h
  · rfl
  · simp [h.1, h.2]

theorem same_of_eq {x y : F32} (hx : NoNegZero x) (hy : NoNegZero y) (h : F32.eq x y = true) : x = y := by
  unfold F32.eq at h
  simp only [Bool.and_eq_true, Bool.or_eq_true, beq_iff_eq] at h
  rcases h.2 with rfl | h
  · rfl
  · rw [hx h.1, hy h.2]

theorem orNear_type {a b : Query} (h : a.type = b.type) : orNear a b = false := by
  cases a <;> cases b <;> first
    | rfl
    | (exfalso; revert h; simp [Query.type]; done)
    | (rename_i t _; cases t <;> (exfalso; revert h; simp [Query.type]))

theorem multiEq_same : ∀ (a b : List (List Byte × F32)), a.length = b.length → (∀ t ∈ a, NoNegZero t.2) → (∀ t ∈ b, NoNegZero t.2) →
    multiEq a b = true → a = b := by
  intro a
  induction a with
  | nil =>
    intro b hl _ _ _
    cases b with
    | nil => rfl
    | cons _ _ => simp at hl
  | cons x xs ih =>
    intro b hl ha hb h
    cases b with
    | nil => simp at hl
    | cons y ys =>
      simp only [multiEq, Bool.and_eq_true, beq_iff_eq] at h
      obtain ⟨⟨h1, h2⟩, h3⟩ := h
      have e2 := same_of_eq (ha x (by simp)) (hb y (by simp)) h2
      have e3 := ih ys (by simpa using hl) (fun t ht => ha t (by simp [ht])) (fun t ht => hb t (by simp [ht])) h3
      rw [e3, Prod.ext h1 e2]

theorem phraseEq_same : ∀ (a b : List (Int × List (List Byte))), a.length = b.length → phraseEq a b = true → a = b := by
  intro a
  induction a with
  | nil =>
    intro b hl _
    cases b with
    | nil => rfl
    | cons _ _ => simp at hl
  | cons x xs ih =>
    intro b hl h
    cases b with
    | nil => simp at hl
    | cons y ys =>
      simp only [phraseEq, Bool.and_eq_true, beq_iff_eq] at h
      obtain ⟨⟨⟨_, h1⟩, h2⟩, h3⟩ := h
      rw [ih ys (by simpa using hl) h3, Prod.ext h1 h2]

theorem rangeEq_same {a b : Range} (h : rangeEq a b = true) : a = b := by
  unfold rangeEq at h
  simp only [Bool.and_eq_true, beq_iff_eq] at h
  obtain ⟨⟨⟨⟨h1, h2⟩, h3⟩, h4⟩, h5⟩ := h
  cases a; cases b
  simp_all

section Hash
variable (m : Memory) (pa ra pb rb : Query → Prop) (ka kb : Filter → Prop)
  (hpa : ∀ x, pa x → PlainNumbers x) (hpb : ∀ x, pb x → PlainNumbers x) (hr : ∀ x y, ra x → rb y → orNear x y = false)
include hpa hpb hr

mutual
theorem eqM_hash : ∀ (a b : Query), Parts m pa ra ka a → Parts m pb rb kb b → orNear a b = false → eqM a b = .ok true → hashM a = hashM b
  | .term _ f t, b, _, _, _, h => by
    cases b <;> simp only [eqM, Res.ok.injEq, Bool.and_eq_true, beq_iff_eq, reduceCtorEq] at h
    rw [h.1, h.2]
    rfl
  | .multi _ f ts, b, ha, hb, _, h => by
    cases b <;> simp only [eqM, Res.ok.injEq, Bool.and_eq_true, beq_iff_eq, reduceCtorEq] at h
    rw [h.1.1, multiEq_same _ _ h.1.2 (hpa _ ha.2) (hpb _ hb.2) h.2]
    rfl
  | .bool _ cd mx cs, b, ha, hb, _, h => by
    cases b <;> simp only [eqM, reduceCtorEq] at h
    obtain ⟨h1, h2⟩ := andR_true h
    simp only [Bool.and_eq_true, beq_iff_eq] at h1
    simp only [hashM]
    rw [eqC_hash cs _ ha.2.2 hb.2.2 h1.2 h2 0, h1.1.1]
  | .phrase _ f ps slop, b, _, _, _, h => by
    cases b <;> simp only [eqM, Res.ok.injEq, Bool.and_eq_true, beq_iff_eq, reduceCtorEq] at h
    rw [h.1.1.1, h.1.1.2, phraseEq_same _ _ h.1.2 h.2]
    rfl
  | .const _ f, b, ha, hb, _, h => by
    cases b <;> simp only [eqM, reduceCtorEq] at h
    exact eqF_hash f _ ha.2.2 hb.2.2 h
  | .filtered .., b, _, _, _, h => by simp [eqM] at h
  | .all _, b, _, _, ho, h => by
    cases b <;> first | rfl | simp [orNear] at ho
  | .range _ _ r, b, _, _, _, h => by
    cases b <;> simp only [eqM, Res.ok.injEq, reduceCtorEq] at h
    rw [rangeEq_same h]
    rfl
  | .wild _ f p _, b, _, _, _, h => by
    cases b <;> simp only [eqM, Res.ok.injEq, Bool.and_eq_true, beq_iff_eq, reduceCtorEq] at h
    rw [h.1, h.2]
    rfl
  | .fuzzy _ f t ms pl _, b, ha, hb, _, h => by
    cases b <;> simp only [eqM, Res.ok.injEq, Bool.and_eq_true, beq_iff_eq, reduceCtorEq] at h
    rw [h.1.1.1, h.1.1.2, h.1.2, same_of_eq (hpa _ ha.2) (hpb _ hb.2) h.2]
    rfl
  | .pfx _ f p _, b, _, _, _, h => by
    cases b <;> simp only [eqM, Res.ok.injEq, Bool.and_eq_true, beq_iff_eq, reduceCtorEq] at h
    rw [h.1, h.2]
    rfl
  | .sTerm _ f t, b, _, _, _, h => by
    unfold eqM at h
    obtain ⟨h1, h2⟩ := spanAnd_true h
    cases b <;> simp only [Query.spanField, Res.ok.injEq, Option.some.injEq, beq_iff_eq, reduceCtorEq] at h1 h2
    · rw [h1, h2]; rfl
    · rw [h1, h2]; rfl
  | .sMulti _ f ts, b, _, _, _, h => by
    unfold eqM at h
    obtain ⟨h1, h2⟩ := spanAnd_true h
    cases b <;> simp only [Query.spanField, Res.ok.injEq, Option.some.injEq, Bool.and_eq_true, beq_iff_eq, reduceCtorEq] at h1 h2
    rw [h1, h2.2]
    rfl
  | .sPfx _ f p _, b, _, _, _, h => by
    cases b <;> simp only [eqM, Res.ok.injEq, Bool.and_eq_true, beq_iff_eq, reduceCtorEq] at h
    · rw [h.1, h.2]; rfl
    · rw [h.1, h.2]; rfl
  | .sFirst _ f q stop, b, ha, hb, _, h => by
    unfold eqM at h
    obtain ⟨h1, h2⟩ := spanAnd_true h
    cases b <;> simp only [Query.spanField, Res.ok.injEq, reduceCtorEq] at h1 h2
    obtain ⟨r, h3, h4⟩ := Res.bind_eq_ok.1 h2
    simp only [Res.ok.injEq, Bool.and_eq_true, beq_iff_eq] at h4
    rw [h4.1] at h3
    simp only [hashM]
    rw [eqM_hash q _ ha.2.2.2 hb.2.2.2 (hr _ _ ha.2.2.1 hb.2.2.1) h3, h1, h4.2]
  | .sOr _ f cs, b, ha, hb, ho, h => by
    unfold eqM at h
    obtain ⟨h1, h2⟩ := spanAnd_true h
    cases b <;> simp only [Query.spanField, Res.ok.injEq, reduceCtorEq] at h1 h2
    · obtain ⟨h3, h4⟩ := andR_true h2
      simp only [beq_iff_eq] at h3
      simp only [hashM]
      rw [eqQ_hash cs _ ha.2.2 hb.2.2 h3 h4, h1]
    · simp [orNear] at ho
  | .sNot _ f inc exc, b, ha, hb, _, h => by
    unfold eqM at h
    obtain ⟨h1, h2⟩ := spanAnd_true h
    cases b <;> simp only [Query.spanField, Res.ok.injEq, reduceCtorEq] at h1 h2
    obtain ⟨r, h3, h4⟩ := Res.bind_eq_ok.1 h2
    obtain ⟨rfl, h5⟩ := andR_true h4
    simp only [hashM]
    rw [eqM_hash inc _ ha.2.2.1.2 hb.2.2.1.2 (hr _ _ ha.2.2.1.1 hb.2.2.1.1) h3,
      eqM_hash exc _ ha.2.2.2.2 hb.2.2.2.2 (hr _ _ ha.2.2.2.1 hb.2.2.2.1) h5, h1]
  | .sNear _ f cs slop io, b, ha, hb, _, h => by
    unfold eqM at h
    obtain ⟨h1, h2⟩ := spanAnd_true h
    cases b <;> simp only [Query.spanField, Res.ok.injEq, reduceCtorEq] at h1 h2
    obtain ⟨h3, h4⟩ := andR_true h2
    simp only [Bool.and_eq_true, beq_iff_eq] at h3
    simp only [hashM]
    rw [eqQ_hash cs _ ha.2.2 hb.2.2 h3.1.1 h4, h1, h3.1.2, h3.2]
theorem eqC_hash : ∀ (a b : Clauses), PartsC m pa ra ka a → PartsC m pb rb kb b → a.len = b.len → clausesEq a b = .ok true →
    ∀ n, clausesHash n a = clausesHash n b
  | .nil, b, _, _, hl, _ => by
    cases b with
    | nil => intro n; rfl
    | cons _ _ _ => simp [Clauses.len] at hl
  | .cons o q cs, b, ha, hb, hl, h => by
    cases b with
    | nil => simp [Clauses.len] at hl
    | cons o' q' cs' =>
      simp only [Clauses.len, Nat.add_right_cancel_iff] at hl
      simp only [clausesEq] at h
      obtain ⟨r, h1, h2⟩ := Res.bind_eq_ok.1 h
      obtain ⟨rfl, h3⟩ := andR_true h2
      obtain ⟨h4, h5⟩ := andR_true h1
      simp only [beq_iff_eq] at h4
      intro n
      simp only [clausesHash]
      unfold qEqOf at h5
      have hq : hashM q = hashM q' ∧ q.type = q'.type := by
        by_cases he : q.hd.addr = q'.hd.addr
        · have e1 := parts_at ha.1
          have e2 := parts_at hb.1
          rw [he] at e1
          have : q = q' := e1.symm.trans e2
          rw [this]
          exact ⟨rfl, rfl⟩
        · rw [if_neg he] at h5
          obtain ⟨h6, h7⟩ := andR_true h5
          simp only [Bool.and_eq_true, beq_iff_eq] at h6
          exact ⟨eqM_hash q q' ha.1 hb.1 (orNear_type h6.1) h7, h6.1⟩
      rw [hq.1, h4]
      unfold qHashOf
      rw [hq.2]
      simp only [eqC_hash cs cs' ha.2 hb.2 hl h3]
theorem eqQ_hash : ∀ (a b : Queries), PartsQ m pa ra ka a → PartsQ m pb rb kb b → a.len = b.len → queriesEq a b = .ok true →
    ∀ n, queriesHash n a = queriesHash n b
  | .nil, b, _, _, hl, _ => by
    cases b with
    | nil => intro n; rfl
    | cons _ _ => simp [Queries.len] at hl
  | .cons q cs, b, ha, hb, hl, h => by
    cases b with
    | nil => simp [Queries.len] at hl
    | cons q' cs' =>
      simp only [Queries.len, Nat.add_right_cancel_iff] at hl
      simp only [queriesEq] at h
      obtain ⟨r, h1, h2⟩ := Res.bind_eq_ok.1 h
      obtain ⟨rfl, h3⟩ := andR_true h2
      intro n
      simp only [queriesHash]
      rw [eqM_hash q q' ha.2.1 hb.2.1 (hr _ _ ha.1 hb.1) h1]
      simp only [eqQ_hash cs cs' ha.2.2 hb.2.2 hl h3]
theorem eqF_hash : ∀ (a b : Filter), PartsF m pa ra ka a → PartsF m pb rb kb b → filtEq a b = .ok true → filtHash a = filtHash b
  | .query a q, b, ha, hb, h => by
    unfold filtEq filtEqOf at h
    by_cases he : (Filter.query a q).addr = b.addr
    · have e1 := partsF_at ha
      have e2 := partsF_at hb
      rw [he] at e1
      rw [← e1, e2]
    · rw [if_neg he] at h
      obtain ⟨h1, h2⟩ := andR_true h
      cases b with
      | range _ _ _ => cases h2
      | other _ _ => cases h2
      | query a' q' =>
        dsimp only at h2
        unfold qEqOf at h2
        simp only [filtHash, Filter.name]
        by_cases ha' : q.hd.addr = q'.hd.addr
        · have e1 := parts_at ha.2.2
          have e2 := parts_at hb.2.2
          rw [ha'] at e1
          have : q = q' := e1.symm.trans e2
          rw [this]
        · rw [if_neg ha'] at h2
          obtain ⟨h6, h7⟩ := andR_true h2
          simp only [Bool.and_eq_true, beq_iff_eq] at h6
          rw [eqM_hash q q' ha.2.2 hb.2.2 (orNear_type h6.1) h7]
          unfold qHashOf
          rw [h6.1]
  | .range a t r, b, ha, hb, h => by
    unfold filtEq filtEqOf at h
    by_cases he : (Filter.range a t r).addr = b.addr
    · have e1 := partsF_at ha
      have e2 := partsF_at hb
      rw [he] at e1
      rw [← e1, e2]
    · rw [if_neg he] at h
      obtain ⟨h1, h2⟩ := andR_true h
      cases b with
      | query _ _ => cases h2
      | other _ _ => cases h2
      | range a' t' r' =>
        simp only [Res.ok.injEq] at h2
        rw [rangeEq_same h2]
        rfl
  | .other a n, b, ha, hb, h => by
    simp only [filtEq, filtEqOf] at h
    by_cases he : (Filter.other a n).addr = b.addr
    · have e1 := partsF_at ha
      have e2 := partsF_at hb
      rw [he] at e1
      rw [← e1, e2]
    · rw [if_neg he] at h
      obtain ⟨h1, h2⟩ := andR_true h
      simp at h2
end
end Hash

/-! ### Equal queries ask the same -/

theorem misread_type {a b : Query} (h : a.type = b.type) : misread a b = false := by
  cases a <;> cases b <;> first
    | rfl
    | (exfalso; revert h; simp [Query.type]; done)
    | (rename_i t _; cases t <;> (exfalso; revert h; simp [Query.type]; done))
    | (rename_i t _ _ t' _; cases t <;> cases t' <;> first | rfl | (exfalso; revert h; simp [Query.type]; done))

theorem multiEq_numbers : ∀ (a b : List (List Byte × F32)), a.length = b.length → multiEq a b = true →
    a.map (fun t => (t.1, number t.2)) = b.map fun t => (t.1, number t.2) := by
  intro a
  induction a with
  | nil =>
    intro b hl _
    cases b with
    | nil => rfl
    | cons _ _ => simp at hl
  | cons x xs ih =>
    intro b hl h
    cases b with
    | nil => simp at hl
    | cons y ys =>
      simp only [multiEq, Bool.and_eq_true, beq_iff_eq] at h
      obtain ⟨⟨h1, h2⟩, h3⟩ := h
      simp only [List.map_cons]
      rw [ih ys (by simpa using hl) h3, h1, number_of_eq h2]

theorem asks_of_unboosted {a b : Query} (ht : a.type = b.type) (hb : F32.eq a.hd.boost b.hd.boost = true)
    (h : unboosted (asks a) = unboosted (asks b)) : asks a = asks b := by
  have hn := number_of_eq hb
  cases a <;> cases b <;> simp only [asks, unboosted, reduceCtorEq, Query.hd] at h hn ⊢ <;> simp_all

section Asks
variable (m : Memory) (pa ra pb rb : Query → Prop) (ka kb : Filter → Prop)
  (hr : ∀ x y, ra x → rb y → misread x y = false) (hk : ∀ f g, ka f → kb g → sameRange f g = true)
include hr hk

mutual
theorem eqM_asks : ∀ (a b : Query), Parts m pa ra ka a → Parts m pb rb kb b → misread a b = false →
    eqM a b = .ok true → unboosted (asks a) = unboosted (asks b)
  | .term _ f t, b, _, _, _, h => by
    cases b <;> simp only [eqM, Res.ok.injEq, Bool.and_eq_true, beq_iff_eq, reduceCtorEq] at h
    rw [h.1, h.2]
    rfl
  | .multi _ f ts, b, ha, hb, _, h => by
    cases b <;> simp only [eqM, Res.ok.injEq, Bool.and_eq_true, beq_iff_eq, reduceCtorEq] at h
    simp only [asks, unboosted]
    rw [h.1.1, multiEq_numbers _ _ h.1.2 h.2]
  | .bool _ cd mx cs, b, ha, hb, _, h => by
    cases b <;> simp only [eqM, reduceCtorEq] at h
    obtain ⟨h1, h2⟩ := andR_true h
    simp only [Bool.and_eq_true, beq_iff_eq] at h1
    simp only [asks, unboosted]
    rw [eqC_asks cs _ ha.2.2 hb.2.2 h1.2 h2, h1.1.1]
  | .phrase _ f ps slop, b, _, _, _, h => by
    cases b <;> simp only [eqM, Res.ok.injEq, Bool.and_eq_true, beq_iff_eq, reduceCtorEq] at h
    rw [h.1.1.1, h.1.1.2, phraseEq_same _ _ h.1.2 h.2]
    rfl
  | .const _ f, b, ha, hb, _, h => by
    cases b <;> simp only [eqM, reduceCtorEq] at h
    simp only [asks, unboosted]
    rw [eqF_asks f _ ha.2.2 hb.2.2 h]
  | .filtered .., b, _, _, _, h => by simp [eqM] at h
  | .all _, b, _, _, ho, h => by
    cases b <;> first | rfl | simp [misread] at ho
  | .range _ t r, b, _, _, ho, h => by
    cases b <;> simp only [eqM, Res.ok.injEq, reduceCtorEq] at h
    simp only [misread, bne_eq_false_iff_eq] at ho
    rw [rangeEq_same h, ho]
    rfl
  | .wild _ f p _, b, _, _, _, h => by
    cases b <;> simp only [eqM, Res.ok.injEq, Bool.and_eq_true, beq_iff_eq, reduceCtorEq] at h
    rw [h.1, h.2]
    rfl
  | .fuzzy _ f t ms pl _, b, ha, hb, _, h => by
    cases b <;> simp only [eqM, Res.ok.injEq, Bool.and_eq_true, beq_iff_eq, reduceCtorEq] at h
    simp only [asks, unboosted]
    rw [h.1.1.1, h.1.1.2, h.1.2, number_of_eq h.2]
  | .pfx _ f p _, b, _, _, _, h => by
    cases b <;> simp only [eqM, Res.ok.injEq, Bool.and_eq_true, beq_iff_eq, reduceCtorEq] at h
    rw [h.1, h.2]
    rfl
  | .sTerm _ f t, b, _, _, ho, h => by
    unfold eqM at h
    obtain ⟨h1, h2⟩ := spanAnd_true h
    cases b <;> simp only [Query.spanField, Res.ok.injEq, Option.some.injEq, beq_iff_eq, reduceCtorEq] at h1 h2
    · rw [h1, h2]; rfl
    · simp [misread] at ho
  | .sMulti _ f ts, b, _, _, _, h => by
    unfold eqM at h
    obtain ⟨h1, h2⟩ := spanAnd_true h
    cases b <;> simp only [Query.spanField, Res.ok.injEq, Option.some.injEq, Bool.and_eq_true, beq_iff_eq, reduceCtorEq] at h1 h2
    rw [h1, h2.2]
    rfl
  | .sPfx _ f p _, b, _, _, ho, h => by
    cases b <;> simp only [eqM, Res.ok.injEq, Bool.and_eq_true, beq_iff_eq, reduceCtorEq] at h
    · simp [misread] at ho
    · rw [h.1, h.2]; rfl
  | .sFirst _ f q stop, b, ha, hb, _, h => by
    unfold eqM at h
    obtain ⟨h1, h2⟩ := spanAnd_true h
    cases b <;> simp only [Query.spanField, Res.ok.injEq, reduceCtorEq] at h1 h2
    obtain ⟨r, h3, h4⟩ := Res.bind_eq_ok.1 h2
    simp only [Res.ok.injEq, Bool.and_eq_true, beq_iff_eq] at h4
    rw [h4.1] at h3
    show Query.sFirst _ f (unboosted (asks q)) stop = Query.sFirst _ _ (unboosted (asks _)) _
    rw [eqM_asks q _ ha.2.2.2 hb.2.2.2 (hr _ _ ha.2.2.1 hb.2.2.1) h3, h1, h4.2]
  | .sOr _ f cs, b, ha, hb, ho, h => by
    unfold eqM at h
    obtain ⟨h1, h2⟩ := spanAnd_true h
    cases b <;> simp only [Query.spanField, Res.ok.injEq, reduceCtorEq] at h1 h2
    · obtain ⟨h3, h4⟩ := andR_true h2
      simp only [beq_iff_eq] at h3
      simp only [asks, unboosted]
      rw [eqQ_asks cs _ ha.2.2 hb.2.2 h3 h4, h1]
    · simp [misread] at ho
  | .sNot _ f inc exc, b, ha, hb, _, h => by
    unfold eqM at h
    obtain ⟨h1, h2⟩ := spanAnd_true h
    cases b <;> simp only [Query.spanField, Res.ok.injEq, reduceCtorEq] at h1 h2
    obtain ⟨r, h3, h4⟩ := Res.bind_eq_ok.1 h2
    obtain ⟨rfl, h5⟩ := andR_true h4
    show Query.sNot _ f (unboosted (asks inc)) (unboosted (asks exc)) = Query.sNot _ _ (unboosted (asks _)) (unboosted (asks _))
    rw [eqM_asks inc _ ha.2.2.1.2 hb.2.2.1.2 (hr _ _ ha.2.2.1.1 hb.2.2.1.1) h3,
      eqM_asks exc _ ha.2.2.2.2 hb.2.2.2.2 (hr _ _ ha.2.2.2.1 hb.2.2.2.1) h5, h1]
  | .sNear _ f cs slop io, b, ha, hb, _, h => by
    unfold eqM at h
    obtain ⟨h1, h2⟩ := spanAnd_true h
    cases b <;> simp only [Query.spanField, Res.ok.injEq, reduceCtorEq] at h1 h2
    obtain ⟨h3, h4⟩ := andR_true h2
    simp only [Bool.and_eq_true, beq_iff_eq] at h3
    simp only [asks, unboosted]
    rw [eqQ_asks cs _ ha.2.2 hb.2.2 h3.1.1 h4, h1, h3.1.2, h3.2]
theorem eqC_asks : ∀ (a b : Clauses), PartsC m pa ra ka a → PartsC m pb rb kb b → a.len = b.len → clausesEq a b = .ok true →
    asksClauses a = asksClauses b
  | .nil, b, _, _, hl, _ => by
    cases b with
    | nil => rfl
    | cons _ _ _ => simp [Clauses.len] at hl
  | .cons o q cs, b, ha, hb, hl, h => by
    cases b with
    | nil => simp [Clauses.len] at hl
    | cons o' q' cs' =>
      simp only [Clauses.len, Nat.add_right_cancel_iff] at hl
      simp only [clausesEq] at h
      obtain ⟨r, h1, h2⟩ := Res.bind_eq_ok.1 h
      obtain ⟨rfl, h3⟩ := andR_true h2
      obtain ⟨h4, h5⟩ := andR_true h1
      simp only [beq_iff_eq] at h4
      simp only [asksClauses]
      unfold qEqOf at h5
      have hq : asks q = asks q' := by
        by_cases he : q.hd.addr = q'.hd.addr
        · have e1 := parts_at ha.1
          have e2 := parts_at hb.1
          rw [he] at e1
          have : q = q' := e1.symm.trans e2
          rw [this]
        · rw [if_neg he] at h5
          obtain ⟨h6, h7⟩ := andR_true h5
          simp only [Bool.and_eq_true, beq_iff_eq] at h6
          exact asks_of_unboosted h6.1 h6.2 (eqM_asks q q' ha.1 hb.1 (misread_type h6.1) h7)
      rw [hq, h4, eqC_asks cs cs' ha.2 hb.2 hl h3]
theorem eqQ_asks : ∀ (a b : Queries), PartsQ m pa ra ka a → PartsQ m pb rb kb b → a.len = b.len → queriesEq a b = .ok true →
    asksQueries a = asksQueries b
  | .nil, b, _, _, hl, _ => by
    cases b with
    | nil => rfl
    | cons _ _ => simp [Queries.len] at hl
  | .cons q cs, b, ha, hb, hl, h => by
    cases b with
    | nil => simp [Queries.len] at hl
    | cons q' cs' =>
      simp only [Queries.len, Nat.add_right_cancel_iff] at hl
      simp only [queriesEq] at h
      obtain ⟨r, h1, h2⟩ := Res.bind_eq_ok.1 h
      obtain ⟨rfl, h3⟩ := andR_true h2
      simp only [asksQueries]
      rw [eqM_asks q q' ha.2.1 hb.2.1 (hr _ _ ha.1 hb.1) h1, eqQ_asks cs cs' ha.2.2 hb.2.2 hl h3]
theorem eqF_asks : ∀ (a b : Filter), PartsF m pa ra ka a → PartsF m pb rb kb b → filtEq a b = .ok true → asksFilter a = asksFilter b
  | .query a q, b, ha, hb, h => by
    unfold filtEq filtEqOf at h
    by_cases he : (Filter.query a q).addr = b.addr
    · have e1 := partsF_at ha
      have e2 := partsF_at hb
      rw [he] at e1
      rw [← e1, e2]
    · rw [if_neg he] at h
      obtain ⟨h1, h2⟩ := andR_true h
      cases b with
      | range _ _ _ => cases h2
      | other _ _ => cases h2
      | query a' q' =>
        dsimp only at h2
        unfold qEqOf at h2
        simp only [asksFilter]
        by_cases ha' : q.hd.addr = q'.hd.addr
        · have e1 := parts_at ha.2.2
          have e2 := parts_at hb.2.2
          rw [ha'] at e1
          have : q = q' := e1.symm.trans e2
          rw [this]
        · rw [if_neg ha'] at h2
          obtain ⟨h6, h7⟩ := andR_true h2
          simp only [Bool.and_eq_true, beq_iff_eq] at h6
          rw [asks_of_unboosted h6.1 h6.2 (eqM_asks q q' ha.2.2 hb.2.2 (misread_type h6.1) h7)]
  | .range a t r, b, ha, hb, h => by
    unfold filtEq filtEqOf at h
    by_cases he : (Filter.range a t r).addr = b.addr
    · have e1 := partsF_at ha
      have e2 := partsF_at hb
      rw [he] at e1
      rw [← e1, e2]
    · rw [if_neg he] at h
      obtain ⟨h1, h2⟩ := andR_true h
      cases b with
      | query _ _ => cases h2
      | other _ _ => cases h2
      | range a' t' r' =>
        simp only [Res.ok.injEq] at h2
        have := hk _ _ ha.2 hb.2
        simp only [sameRange, beq_iff_eq] at this
        rw [rangeEq_same h2, this]
        rfl
  | .other a n, b, ha, hb, h => by
    unfold filtEq filtEqOf at h
    by_cases he : (Filter.other a n).addr = b.addr
    · have e1 := partsF_at ha
      have e2 := partsF_at hb
      rw [he] at e1
      rw [← e1, e2]
    · rw [if_neg he] at h
      obtain ⟨h1, h2⟩ := andR_true h
      simp at h2
end
end Asks

/-! ### Queries that ask the same are equal -/

theorem eq_of_number {x y : F32} (hx : F32.nan x = false) (hy : F32.nan y = false) (h : number x = number y) : F32.eq x y = true := by
  unfold F32.eq
  rw [hx, hy]
  unfold number at h
  cases zx : F32.zero x <;> cases zy : F32.zero y <;> simp only [zx, zy, if_true, if_false, Bool.false_eq_true] at h
  · simp [h]
  · subst h; exact absurd zx (by decide)
  · subst h; exact absurd zy (by decide)
  · simp

theorem multiEq_of_numbers : ∀ (a b : List (List Byte × F32)), (∀ t ∈ a, F32.nan t.2 = false) → (∀ t ∈ b, F32.nan t.2 = false) →
    a.map (fun t => (t.1, number t.2)) = b.map (fun t => (t.1, number t.2)) → a.length = b.length ∧ multiEq a b = true := by
  intro a
  induction a with
  | nil =>
    intro b _ _ h
    cases b with
    | nil => exact ⟨rfl, rfl⟩
    | cons _ _ => simp at h
  | cons x xs ih =>
    intro b ha hb h
    cases b with
    | nil => simp at h
    | cons y ys =>
      simp only [List.map_cons, List.cons.injEq, Prod.mk.injEq] at h
      obtain ⟨h1, h2⟩ := ih ys (fun t ht => ha t (by simp [ht])) (fun t ht => hb t (by simp [ht])) h.2
      refine ⟨by simp [h1], ?_⟩
      simp only [multiEq, Bool.and_eq_true, beq_iff_eq]
      exact ⟨⟨h.1.1, eq_of_number (ha x (by simp)) (hb y (by simp)) h.1.2⟩, h2⟩

theorem phraseEq_refl : ∀ (a : List (Int × List (List Byte))), phraseEq a a = true := by
  intro a
  induction a with
  | nil => rfl
  | cons x xs ih => simp [phraseEq, ih]

theorem asksClauses_len : ∀ c : Clauses, (asksClauses c).len = c.len
  | .nil => rfl
  | .cons _ _ cs => by simp only [asksClauses, Clauses.len, asksClauses_len cs]

theorem asksQueries_len : ∀ c : Queries, (asksQueries c).len = c.len
  | .nil => rfl
  | .cons _ cs => by simp only [asksQueries, Queries.len, asksQueries_len cs]

theorem asks_type_boost {a b : Query} (h : asks a = asks b) : a.type = b.type ∧ number a.hd.boost = number b.hd.boost ∧
    unboosted (asks a) = unboosted (asks b) := by
  refine ⟨?_, ?_, by rw [h]⟩
  · cases a <;> cases b <;> simp only [asks, reduceCtorEq] at h <;> first
      | rfl
      | (simp only [Query.range.injEq] at h; rename_i t _ _ t' _; have := h.2.1; subst this; cases t <;> rfl)
  · have : (asks a).hd.boost = (asks b).hd.boost := by rw [h]
    have e : ∀ q : Query, (asks q).hd.boost = number q.hd.boost := by intro q; cases q <;> rfl
    rw [e, e] at this
    exact this

section Complete
variable (m : Memory) (p r : Query → Prop) (k : Filter → Prop)
  (hp : ∀ x, p x → NumbersOnly x ∧ F32.nan x.hd.boost = false ∧ ∀ h q f, x ≠ .filtered h q f)
include hp

theorem boost_ok {q : Query} (h : Parts m p r k q) : F32.nan q.hd.boost = false := by
  cases q <;> first | exact (hp _ h.2.1).2.1 | exact (hp _ h.2).2.1

mutual
theorem asks_eqM : ∀ (a b : Query), Parts m p r k a → Parts m p r k b → unboosted (asks a) = unboosted (asks b) → eqM a b = .ok true
  | .term _ f t, b, _, _, h => by
    cases b <;> simp only [asks, unboosted, reduceCtorEq, Query.term.injEq] at h
    simp [eqM, h]
  | .multi _ f ts, b, ha, hb, h => by
    cases b <;> simp only [asks, unboosted, reduceCtorEq, Query.multi.injEq] at h
    obtain ⟨h1, h2⟩ := multiEq_of_numbers _ _ (hp _ ha.2).1 (hp _ hb.2).1 h.2.2
    simp [eqM, h.2.1, h1, h2]
  | .bool _ cd mx cs, b, ha, hb, h => by
    cases b <;> simp only [asks, unboosted, reduceCtorEq, Query.bool.injEq] at h
    have hl := congrArg Clauses.len h.2.2.2
    rw [asksClauses_len, asksClauses_len] at hl
    simp [eqM, andR, h.2.1, hl, asks_eqC cs _ ha.2.2 hb.2.2 h.2.2.2]
  | .phrase _ f ps slop, b, _, _, h => by
    cases b <;> simp only [asks, unboosted, reduceCtorEq, Query.phrase.injEq] at h
    simp [eqM, h, phraseEq_refl]
  | .const _ f, b, ha, hb, h => by
    cases b <;> simp only [asks, unboosted, reduceCtorEq, Query.const.injEq] at h
    simp only [eqM]
    exact asks_eqF f _ ha.2.2 hb.2.2 h.2
  | .filtered h q f, b, ha, _, _ => absurd rfl ((hp _ ha.2.1).2.2 h q f)
  | .all _, b, _, _, h => by unfold eqM; rfl
  | .range _ t r, b, _, _, h => by
    cases b <;> simp only [asks, unboosted, reduceCtorEq, Query.range.injEq] at h
    simp [eqM, h, rangeEq]
  | .wild _ f p _, b, _, _, h => by
    cases b <;> simp only [asks, unboosted, reduceCtorEq, Query.wild.injEq] at h
    simp [eqM, h]
  | .fuzzy _ f t ms pl _, b, ha, hb, h => by
    cases b <;> simp only [asks, unboosted, reduceCtorEq, Query.fuzzy.injEq] at h
    simp [eqM, h, eq_of_number (hp _ ha.2).1 (hp _ hb.2).1 h.2.2.2.1]
  | .pfx _ f p _, b, _, _, h => by
    cases b <;> simp only [asks, unboosted, reduceCtorEq, Query.pfx.injEq] at h
    simp [eqM, h]
  | .sTerm _ f t, b, _, _, h => by
    cases b <;> simp only [asks, unboosted, reduceCtorEq, Query.sTerm.injEq] at h
    simp [eqM, spanAnd, Query.spanField, andR, h]
  | .sMulti _ f ts, b, _, _, h => by
    cases b <;> simp only [asks, unboosted, reduceCtorEq, Query.sMulti.injEq] at h
    simp [eqM, spanAnd, Query.spanField, andR, h]
  | .sPfx _ f p _, b, _, _, h => by
    cases b <;> simp only [asks, unboosted, reduceCtorEq, Query.sPfx.injEq] at h
    simp [eqM, h]
  | .sFirst _ f q stop, b, ha, hb, h => by
    cases b <;> simp only [asks, unboosted, reduceCtorEq, Query.sFirst.injEq] at h
    simp [eqM, spanAnd, Query.spanField, andR, h.2.1, h.2.2.2, asks_eqM q _ ha.2.2.2 hb.2.2.2 h.2.2.1]
  | .sOr _ f cs, b, ha, hb, h => by
    cases b <;> simp only [asks, unboosted, reduceCtorEq, Query.sOr.injEq] at h
    have hl := congrArg Queries.len h.2.2
    rw [asksQueries_len, asksQueries_len] at hl
    simp [eqM, spanAnd, Query.spanField, andR, h.2.1, hl, asks_eqQ cs _ ha.2.2 hb.2.2 h.2.2]
  | .sNot _ f inc exc, b, ha, hb, h => by
    cases b <;> simp only [asks, unboosted, reduceCtorEq, Query.sNot.injEq] at h
    simp [eqM, spanAnd, Query.spanField, andR, h.2.1, asks_eqM inc _ ha.2.2.1.2 hb.2.2.1.2 h.2.2.1, asks_eqM exc _ ha.2.2.2.2 hb.2.2.2.2 h.2.2.2]
  | .sNear _ f cs slop io, b, ha, hb, h => by
    cases b <;> simp only [asks, unboosted, reduceCtorEq, Query.sNear.injEq] at h
    have hl := congrArg Queries.len h.2.2.1
    rw [asksQueries_len, asksQueries_len] at hl
    simp [eqM, spanAnd, Query.spanField, andR, h.2.1, h.2.2.2, hl, asks_eqQ cs _ ha.2.2 hb.2.2 h.2.2.1]
theorem asks_eqC : ∀ (a b : Clauses), PartsC m p r k a → PartsC m p r k b → asksClauses a = asksClauses b → clausesEq a b = .ok true
  | .nil, b, _, _, _ => by simp [clausesEq]
  | .cons o q cs, b, ha, hb, h => by
    cases b with
    | nil => simp [asksClauses] at h
    | cons o' q' cs' =>
      simp only [asksClauses, Clauses.cons.injEq] at h
      obtain ⟨h1, h2, h3⟩ := h
      obtain ⟨t1, t2, t3⟩ := asks_type_boost h2
      have hq : qEqOf q q' (eqM q q') = .ok true := by
        unfold qEqOf
        split
        · rfl
        · rw [t1, eq_of_number (boost_ok m p r k hp ha.1) (boost_ok m p r k hp hb.1) t2, asks_eqM q q' ha.1 hb.1 t3]
          simp [andR]
      simp [clausesEq, h1, hq, andR, asks_eqC cs cs' ha.2 hb.2 h3]
theorem asks_eqQ : ∀ (a b : Queries), PartsQ m p r k a → PartsQ m p r k b → asksQueries a = asksQueries b → queriesEq a b = .ok true
  | .nil, b, _, _, _ => by simp [queriesEq]
  | .cons q cs, b, ha, hb, h => by
    cases b with
    | nil => simp [asksQueries] at h
    | cons q' cs' =>
      simp only [asksQueries, Queries.cons.injEq] at h
      simp [queriesEq, andR, asks_eqM q q' ha.2.1 hb.2.1 h.1, asks_eqQ cs cs' ha.2.2 hb.2.2 h.2]
theorem asks_eqF : ∀ (a b : Filter), PartsF m p r k a → PartsF m p r k b → asksFilter a = asksFilter b → filtEq a b = .ok true
  | .query a q, b, ha, hb, h => by
    cases b <;> simp only [asksFilter, reduceCtorEq, Filter.query.injEq] at h
    rename_i q'
    obtain ⟨t1, t2, t3⟩ := asks_type_boost h.2
    have hq : qEqOf q q' (eqM q q') = .ok true := by
      unfold qEqOf
      split
      · rfl
      · rw [t1, eq_of_number (boost_ok m p r k hp ha.2.2) (boost_ok m p r k hp hb.2.2) t2, asks_eqM q q' ha.2.2 hb.2.2 t3]
        simp [andR]
    simp only [filtEq, filtEqOf, hq, Filter.name, Filter.fn, andR]
    split <;> simp
  | .range a t r, b, ha, hb, h => by
    cases b <;> simp only [asksFilter, reduceCtorEq, Filter.range.injEq] at h
    simp only [filtEq, filtEqOf, Filter.name, Filter.fn, andR, h, rangeEq]
    split <;> simp
  | .other a n, b, ha, hb, h => by
    cases b <;> simp only [asksFilter, reduceCtorEq, Filter.other.injEq] at h
    simp [filtEq, filtEqOf, Filter.addr, h]
end
end Complete

/-! ### Hashing is defined -/

mutual
theorem hashM_ok (m : Memory) (p r : Query → Prop) (k : Filter → Prop) (hp : ∀ x, p x → ∀ h q f, x ≠ .filtered h q f) :
    ∀ (a : Query), Parts m p r k a → ∃ h, hashM a = .ok h
  | .term .., _ => ⟨_, rfl⟩
  | .multi .., _ => ⟨_, rfl⟩
  | .bool _ cd mx cs, ha => by
    obtain ⟨h, e⟩ := hashC_ok m p r k hp cs ha.2.2 0
    exact ⟨_, by simp only [hashM]; rw [e, Res.ok_bind]⟩
  | .phrase .., _ => ⟨_, rfl⟩
  | .const _ f, ha => by
    obtain ⟨h, e⟩ := hashF_ok m p r k hp f ha.2.2
    exact ⟨h, by simp only [hashM]; exact e⟩
  | .filtered h q f, ha => absurd rfl (hp _ ha.2.1 h q f)
  | .all _, _ => ⟨_, rfl⟩
  | .range .., _ => ⟨_, rfl⟩
  | .wild .., _ => ⟨_, rfl⟩
  | .fuzzy .., _ => ⟨_, rfl⟩
  | .pfx .., _ => ⟨_, rfl⟩
  | .sTerm .., _ => ⟨_, rfl⟩
  | .sMulti .., _ => ⟨_, rfl⟩
  | .sPfx .., _ => ⟨_, rfl⟩
  | .sFirst _ f q stop, ha => by
    obtain ⟨h, e⟩ := hashM_ok m p r k hp q ha.2.2.2
    exact ⟨_, by simp only [hashM]; rw [e, Res.ok_bind]⟩
  | .sOr _ f cs, ha => by
    obtain ⟨h, e⟩ := hashQ_ok m p r k hp cs ha.2.2 (spanHash f)
    exact ⟨h, by simp only [hashM]; exact e⟩
  | .sNot _ f inc exc, ha => by
    obtain ⟨h, e⟩ := hashM_ok m p r k hp inc ha.2.2.1.2
    obtain ⟨h', e'⟩ := hashM_ok m p r k hp exc ha.2.2.2.2
    exact ⟨_, by simp only [hashM]; rw [e, e', Res.ok_bind, Res.ok_bind]⟩
  | .sNear _ f cs slop io, ha => by
    obtain ⟨h, e⟩ := hashQ_ok m p r k hp cs ha.2.2 (spanHash f)
    exact ⟨_, by simp only [hashM]; rw [e, Res.ok_bind]⟩
theorem hashC_ok (m : Memory) (p r : Query → Prop) (k : Filter → Prop) (hp : ∀ x, p x → ∀ h q f, x ≠ .filtered h q f) :
    ∀ (a : Clauses), PartsC m p r k a → ∀ n, ∃ h, clausesHash n a = .ok h
  | .nil, _, n => ⟨n, rfl⟩
  | .cons o q cs, ha, n => by
    obtain ⟨h, e⟩ := hashM_ok m p r k hp q ha.1
    obtain ⟨h', e'⟩ := hashC_ok m p r k hp cs ha.2 (n ^^^ ((qHashOf q h <<< 2) ||| UInt64.ofNat o.val))
    exact ⟨h', by simp only [clausesHash]; rw [e, Res.ok_bind]; exact e'⟩
theorem hashQ_ok (m : Memory) (p r : Query → Prop) (k : Filter → Prop) (hp : ∀ x, p x → ∀ h q f, x ≠ .filtered h q f) :
    ∀ (a : Queries), PartsQ m p r k a → ∀ n, ∃ h, queriesHash n a = .ok h
  | .nil, _, n => ⟨n, rfl⟩
  | .cons q cs, ha, n => by
    obtain ⟨h, e⟩ := hashM_ok m p r k hp q ha.2.1
    obtain ⟨h', e'⟩ := hashQ_ok m p r k hp cs ha.2.2 (n ^^^ h)
    exact ⟨h', by simp only [queriesHash]; rw [e, Res.ok_bind]; exact e'⟩
theorem hashF_ok (m : Memory) (p r : Query → Prop) (k : Filter → Prop) (hp : ∀ x, p x → ∀ h q f, x ≠ .filtered h q f) :
    ∀ (a : Filter), PartsF m p r k a → ∃ h, filtHash a = .ok h
  | .query a q, ha => by
    obtain ⟨h, e⟩ := hashM_ok m p r k hp q ha.2.2
    exact ⟨_, by simp only [filtHash]; rw [e, Res.ok_bind]⟩
  | .range .., _ => ⟨_, rfl⟩
  | .other .., _ => ⟨_, rfl⟩
end

end Ferret.QEq
