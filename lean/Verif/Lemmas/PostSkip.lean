import Verif.Lemmas.PostEnum

/-! Skipping. -/

namespace Ferret.Post
open Ferret Ferret.Dict

/-- The skip data is not too far ahead. -/
def SkOK (s : STDE) (c : Nat) : Prop := (s.skipCount - 1) * s.si ≤ c

theorem skip_cond {ps : List Posting} (hok : PsOK ps) {si c j : Nat} (hsi : 3 ≤ si) (hc : c ≤ ps.length) (hj : j ≤ ps.length / si) :
    ((D ps (j * si - 1) : Int) ≠ 0 ∧ (D ps (j * si - 1) : Int) ≥ D ps c) ↔ c / si < j := by
  have hdm := Nat.div_add_mod c si
  have hml := Nat.mod_lt c (show 0 < si by omega)
  have hjn : j * si ≤ ps.length := Nat.le_trans (Nat.mul_le_mul_right si hj) (Nat.div_mul_le_self _ _)
  constructor
  · rintro ⟨h0, h1⟩
    apply Classical.byContradiction
    intro hle
    have hj0 : j ≠ 0 := by
      intro h; subst h
      apply h0
      rw [Nat.zero_mul]; rfl
    have h2 : j * si ≤ c / si * si := Nat.mul_le_mul_right si (by omega)
    have h3 : c / si * si = si * (c / si) := Nat.mul_comm _ _
    have h4 : 1 * si ≤ j * si := Nat.mul_le_mul_right si (by omega)
    have := D_lt hok (show j * si - 1 < c by omega) hc (by omega)
    omega
  · intro hlt
    have h2 : (c / si + 1) * si ≤ j * si := Nat.mul_le_mul_right si hlt
    have h3 : (c / si + 1) * si = si * (c / si) + si := by grind
    have h5 := D_le hok (show c ≤ j * si - 1 by omega) (by omega)
    have h6 := D_lt hok (show 1 < j * si - 1 by omega) (by omega) (by omega)
    constructor <;> omega

/-- The state of the loop over the skip data with `j` entries read. -/
def skAt (si fp pp : Nat) (ps : List Posting) (s : STDE) (j : Nat) : STDE :=
  { s with
    skipDoc := D ps (j * si - 1), frqPtr := fp + F ps (j * si - 1), prxPtr := pp + P ps (j * si - 1)
    skipAt := fp + (encFrq 0 ps).length + (encSkip ps si 0 j).length, skipCount := j }

theorem skipLoop_spec {frq prx : List Byte} {si fp pp : Nat} {ps : List Posting} (h : At frq prx si fp pp ps) (h3 : 3 ≤ si) {c : Nat} (hc : c ≤ ps.length) (target : Int) : ∀ (fuel j : Nat) (s : STDE) (l : Last),
    s.frq = frq → s.si = si → s.docNum = D ps c → s.numSkips = (ps.length / si : Nat) → j ≤ ps.length / si → ps.length / si - j < fuel →
    ∃ j' l', skipLoop target fuel (skAt si fp pp ps s j) l = .ok (skAt si fp pp ps s j', l') ∧ j ≤ j' ∧ j' ≤ ps.length / si ∧
      ((l' = l ∧ j' = j) ∨
       ∃ m, j ≤ m ∧ m ≤ j' ∧ j' ≤ m + 1 ∧ (D ps (m * si - 1) : Int) < target ∧
        l' = ⟨D ps (m * si - 1), fp + F ps (m * si - 1), pp + P ps (m * si - 1), l.num + ((si * (m + 1 - max j (c / si + 1)) : Nat) : Int)⟩) := by
  intro fuel
  induction fuel with
  | zero => intros; omega
  | succ fuel ih =>
    intro j s l hf hsi hd hn hj hfuel
    unfold skipLoop
    by_cases ht : target > (skAt si fp pp ps s j).skipDoc
    · rw [if_pos ht]
      have htj : (D ps (j * si - 1) : Int) < target := ht
      have hcond := skip_cond h.ok h3 hc hj
      have hnum : (if (skAt si fp pp ps s j).skipDoc ≠ 0 ∧ (skAt si fp pp ps s j).skipDoc ≥ (skAt si fp pp ps s j).docNum then l.num + (skAt si fp pp ps s j).si else l.num) =
          l.num + ((si * (j + 1 - max j (c / si + 1)) : Nat) : Int) := by
        show (if (D ps (j * si - 1) : Int) ≠ 0 ∧ (D ps (j * si - 1) : Int) ≥ s.docNum then l.num + s.si else l.num) = _
        rw [hd, hsi]
        by_cases hq : c / si < j
        · rw [if_pos (hcond.2 hq), Nat.max_eq_left (by omega), show j + 1 - j = 1 by omega, Nat.mul_one]
        · rw [if_neg (fun hh => hq (hcond.1 hh)), Nat.max_eq_right (by omega), show j + 1 - (c / si + 1) = 0 by omega, Nat.mul_zero]
          omega
      dsimp only
      rw [hnum]
      by_cases hlast : j = ps.length / si
      · rw [if_pos (show (skAt si fp pp ps s j).skipCount ≥ (skAt si fp pp ps s j).numSkips from show (j : Int) ≥ s.numSkips by rw [hn]; omega)]
        exact ⟨j, _, rfl, Nat.le_refl _, hj, Or.inr ⟨j, Nat.le_refl _, Nat.le_refl _, by omega, htj, rfl⟩⟩
      · rw [if_neg (show ¬ (skAt si fp pp ps s j).skipCount ≥ (skAt si fp pp ps s j).numSkips from show ¬ (j : Int) ≥ s.numSkips by rw [hn]; omega)]
        have hjn : (j + 1) * si ≤ ps.length := Nat.le_trans (Nat.mul_le_mul_right si (show j + 1 ≤ ps.length / si by omega)) (Nat.div_mul_le_self _ _)
        have hjs : j * si + si = (j + 1) * si := by grind
        -- the bytes of the entry
        obtain ⟨rest, hr⟩ := h.frqAt
        have hsplit : encSkip ps si 0 (ps.length / si) = encSkip ps si 0 j ++ (entry ps si j ++ encSkip ps si (j + 1) (ps.length / si - j - 1)) := by
          rw [show ps.length / si = j + (ps.length / si - j - 1 + 1) by omega, encSkip_append]
          simp only [encSkip, Nat.zero_add]
          rw [show j + (ps.length / si - j - 1 + 1) - j - 1 = ps.length / si - j - 1 by omega]
        have hdrop : frq.drop (fp + (encFrq 0 ps).length + (encSkip ps si 0 j).length) = entry ps si j ++ (encSkip ps si (j + 1) (ps.length / si - j - 1) ++ rest) := by
          rw [← List.drop_drop, ← List.drop_drop, hr, List.drop_left, hsplit]
          simp only [List.append_assoc]
          exact List.drop_left
        have hlen := congrArg List.length hr
        rw [hsplit] at hlen
        simp only [List.length_drop, List.length_append] at hlen
        have hfl := h.frqLe
        have hDd : D ps ((j + 1) * si - 1) - D ps (j * si - 1) < 2 ^ 32 := by have := D_lt_max h.ok ((j + 1) * si - 1); omega
        have hFd : F ps ((j + 1) * si - 1) - F ps (j * si - 1) < 2 ^ 32 := by have := F_le_all ps ((j + 1) * si - 1); have := h.ok.frqLt; omega
        have hPd : P ps ((j + 1) * si - 1) - P ps (j * si - 1) < 2 ^ 32 := by have := P_le_all ps ((j + 1) * si - 1); have := h.ok.prxLt; omega
        have hD1 := D_le h.ok (show j * si - 1 ≤ (j + 1) * si - 1 by omega) (by omega)
        have hF1 := F_mono ps (show j * si - 1 ≤ (j + 1) * si - 1 by omega)
        have hP1 := P_mono ps (show j * si - 1 ≤ (j + 1) * si - 1 by omega)
        have hdrop' := hdrop
        unfold entry at hdrop'
        simp only [List.append_assoc] at hdrop'
        obtain ⟨a1, a2, a3⟩ := rdAt_ok (by omega) hdrop' (rdVint_vint _ hDd _)
        obtain ⟨b1, b2, b3⟩ := rdAt_ok a3 a2 (rdVint_vint _ hFd _)
        obtain ⟨c1, c2, c3⟩ := rdAt_ok b3 b2 (rdVint_vint _ hPd _)
        have hfs : (skAt si fp pp ps s j).frq = frq := hf
        have hsk : (skAt si fp pp ps s j).skipAt = fp + (encFrq 0 ps).length + (encSkip ps si 0 j).length := rfl
        rw [hsk, show ∀ x, rdAt rdVint (skAt si fp pp ps s j).frq x = rdAt rdVint frq x from fun x => by rw [hfs], a1, Res.ok_bind]
        dsimp only
        rw [show ∀ x, rdAt rdVint (skAt si fp pp ps s j).frq x = rdAt rdVint frq x from fun x => by rw [hfs], b1, Res.ok_bind]
        dsimp only
        rw [show ∀ x, rdAt rdVint (skAt si fp pp ps s j).frq x = rdAt rdVint frq x from fun x => by rw [hfs], c1, Res.ok_bind]
        dsimp only
        have hnext : ({ skAt si fp pp ps s j with
            skipDoc := (skAt si fp pp ps s j).skipDoc + ((D ps ((j + 1) * si - 1) - D ps (j * si - 1) : Nat) : Int), frqPtr := (skAt si fp pp ps s j).frqPtr + (F ps ((j + 1) * si - 1) - F ps (j * si - 1)),
            prxPtr := (skAt si fp pp ps s j).prxPtr + (P ps ((j + 1) * si - 1) - P ps (j * si - 1)),
            skipAt := fp + (encFrq 0 ps).length + (encSkip ps si 0 j).length + (vint (D ps ((j + 1) * si - 1) - D ps (j * si - 1))).length + (vint (F ps ((j + 1) * si - 1) - F ps (j * si - 1))).length +
              (vint (P ps ((j + 1) * si - 1) - P ps (j * si - 1))).length,
            skipCount := (skAt si fp pp ps s j).skipCount + 1 } : STDE) = skAt si fp pp ps s (j + 1) := by
          unfold skAt
          dsimp only
          rw [encSkip_succ]
          unfold entry
          simp only [List.length_append]
          congr 1 <;> omega
        rw [hnext]
        obtain ⟨j', l', e1, d1, d2, d3⟩ := ih (j + 1) s ⟨(skAt si fp pp ps s j).skipDoc, (skAt si fp pp ps s j).frqPtr, (skAt si fp pp ps s j).prxPtr, l.num + ((si * (j + 1 - max j (c / si + 1)) : Nat) : Int)⟩ hf hsi hd hn (by omega) (by omega)
        refine ⟨j', l', e1, by omega, d2, Or.inr ?_⟩
        rcases d3 with ⟨rfl, rfl⟩ | ⟨m, m1, m2, m3, m4, rfl⟩
        · exact ⟨j, Nat.le_refl _, by omega, by omega, htj, rfl⟩
        · refine ⟨m, by omega, m2, m3, m4, ?_⟩
          dsimp only
          rw [Int.add_assoc, ← Int.natCast_add, ← Nat.mul_add]
          rw [show j + 1 - max j (c / si + 1) + (m + 1 - max (j + 1) (c / si + 1)) = m + 1 - max j (c / si + 1) by omega]
    · rw [if_neg ht]
      exact ⟨j, l, rfl, Nat.le_refl _, hj, Or.inl ⟨rfl, rfl⟩⟩

theorem skipAhead_spec {frq prx : List Byte} {si fp pp : Nat} {ps : List Posting} (h : At frq prx si fp pp ps) (h3 : 3 ≤ si) {s : STDE} {c : Nat} {left : List Int}
    (hs : Core frq prx si fp pp ps s c) (hsk : SkOK s c) (hprx : s.isPos = true → Prx prx pp ps s c left) (target : Int) :
    ∃ s' c' left', skipAhead s target = .ok s' ∧ Core frq prx si fp pp ps s' c' ∧ (s'.skipCount - 1) * s'.si ≤ (c' : Int) + 1 ∧ (s'.isPos = true → Prx prx pp ps s' c' left') ∧ c ≤ c' ∧
      (∀ i p, c ≤ i → i < c' → ps[i]? = some p → (p.doc : Int) < target) ∧ s'.isPos = s.isPos ∧ s'.del = s.del := by
  have same : ∃ s' c' left', Res.ok s = .ok s' ∧ Core frq prx si fp pp ps s' c' ∧ (s'.skipCount - 1) * s'.si ≤ (c' : Int) + 1 ∧ (s'.isPos = true → Prx prx pp ps s' c' left') ∧ c ≤ c' ∧
      (∀ i p, c ≤ i → i < c' → ps[i]? = some p → (p.doc : Int) < target) ∧ s'.isPos = s.isPos ∧ s'.del = s.del :=
    ⟨s, c, left, rfl, hs, by unfold SkOK at hsk; omega, hprx, Nat.le_refl _, fun i p h1 h2 => by omega, rfl, rfl⟩
  unfold skipAhead
  by_cases hg : s.docFreq ≥ s.si ∧ target > s.docNum
  · rw [if_pos hg]
    have hn : si ≤ ps.length := by have := hg.1; rw [hs.docFreq, hs.siF] at this; omega
    rw [if_neg (by rw [hs.siF]; omega)]
    obtain ⟨j, j1, j2, j3, j4, j5, j6, j7⟩ := hs.skip
    -- the skip stream is in place
    have hst : (if s.haveSkipped = true then s else { s with skipAt := s.skipPtr, haveSkipped := true }) = skAt si fp pp ps { s with haveSkipped := true } j := by
      unfold skAt
      cases hh : s.haveSkipped with
      | true =>
        rw [if_pos rfl]
        have := j7 hh
        rw [← j1, ← j3, ← j4, ← j5, ← this, ← hh]
      | false =>
        obtain ⟨k1, k2⟩ := j6 hh
        rw [if_neg (by decide)]
        subst k1
        simp only [encSkip, List.length_nil, Nat.add_zero]
        rw [← k2 hn, ← j3, ← j4, ← j5, ← j1]
    dsimp only
    rw [hst]
    have hcnt : (skAt si fp pp ps { s with haveSkipped := true } j).count = c := hs.count
    obtain ⟨j', l', e1, d1, d2, d3⟩ := skipLoop_spec h h3 hs.le target (((skAt si fp pp ps { s with haveSkipped := true } j).numSkips - (skAt si fp pp ps { s with haveSkipped := true } j).skipCount).toNat + 1) j
      { s with haveSkipped := true } ⟨(skAt si fp pp ps { s with haveSkipped := true } j).skipDoc, (skAt si fp pp ps { s with haveSkipped := true } j).frqAt, 0, -1 - Int.tmod (skAt si fp pp ps { s with haveSkipped := true } j).count (skAt si fp pp ps { s with haveSkipped := true } j).si⟩
      hs.frqF hs.siF hs.docNum hs.numSkips j2 (by show _ < (s.numSkips - (j : Int)).toNat + 1; rw [hs.numSkips]; omega)
    rw [e1, Res.ok_bind]
    have hq : j ≤ c / si + 1 := by
      unfold SkOK at hsk
      rw [j1, hs.siF] at hsk
      cases j with
      | zero => exact Nat.zero_le _
      | succ k =>
        have : k * si ≤ c := by
          have e : (((k + 1 : Nat) : Int) - 1) = k := by omega
          rw [e] at hsk
          have : ((k * si : Nat) : Int) ≤ c := by rw [Int.natCast_mul]; exact hsk
          omega
        have := (Nat.le_div_iff_mul_le (show 0 < si by omega)).2 this
        omega
    have hfrqAt : (skAt si fp pp ps { s with haveSkipped := true } j').frqAt = fp + F ps c := hs.frqAt
    have hcore : ∀ (c' : Nat), c' ≤ ps.length → ∀ (st : STDE), st.frq = s.frq → st.prx = s.prx → st.si = s.si → st.docFreq = s.docFreq → st.numSkips = s.numSkips → st.haveSkipped = true → st.skipCount = j' → st.skipDoc = D ps (j' * si - 1) →
        st.frqPtr = fp + F ps (j' * si - 1) → st.prxPtr = pp + P ps (j' * si - 1) → st.skipAt = fp + (encFrq 0 ps).length + (encSkip ps si 0 j').length → st.count = c' → st.docNum = D ps c' → st.frqAt = fp + F ps c' →
        Core frq prx si fp pp ps st c' := by
      intro c' hc' st a1 a2 a3 a4 a5 a6 a7 a8 a9 b1 b2 b3 b4 b5
      exact ⟨a1.trans hs.frqF, a2.trans hs.prxF, a3.trans hs.siF, hc', b3, a4.trans hs.docFreq, b4, b5, a5.trans hs.numSkips, j', a7, d2, a8, a9, b1, (fun hh => by rw [a6] at hh; cases hh), fun _ => b2⟩
    have stay : ∀ X : Res STDE, ¬ l'.frq > fp + F ps c → ((j' : Int) - 1) * si ≤ (c : Int) + 1 → ∃ s' c' left', (if l'.frq > (skAt si fp pp ps { s with haveSkipped := true } j').frqAt then X else Res.ok (skAt si fp pp ps { s with haveSkipped := true } j')) = .ok s' ∧ Core frq prx si fp pp ps s' c' ∧ (s'.skipCount - 1) * s'.si ≤ (c' : Int) + 1 ∧ (s'.isPos = true → Prx prx pp ps s' c' left') ∧ c ≤ c' ∧
      (∀ i p, c ≤ i → i < c' → ps[i]? = some p → (p.doc : Int) < target) ∧ s'.isPos = s.isPos ∧ s'.del = s.del := by
      intro X hno hb
      rw [if_neg (by rw [hfrqAt]; exact hno)]
      refine ⟨_, c, left, rfl, hcore c hs.le _ rfl rfl rfl rfl rfl rfl rfl rfl rfl rfl rfl hs.count hs.docNum hs.frqAt, ?_, fun hp => ?_, Nat.le_refl _, fun i p h1 h2 => by omega, rfl, rfl⟩
      · show ((j' : Int) - 1) * s.si ≤ _
        rw [hs.siF]; exact hb
      · have := hprx hp
        exact ⟨this.cnt, this.at', this.bytes, this.range⟩
    rcases d3 with ⟨rfl, rfl⟩ | ⟨m, m1, m2, m3, m4, rfl⟩
    · refine stay _ ?_ ?_
      · show ¬ s.frqAt > _
        rw [hs.frqAt]; omega
      · unfold SkOK at hsk
        rw [j1, hs.siF] at hsk
        omega
    · have hmn : m * si ≤ ps.length := Nat.le_trans (Nat.mul_le_mul_right si (show m ≤ ps.length / si by omega)) (Nat.div_mul_le_self _ _)
      have hdm := Nat.div_add_mod c si
      have hml := Nat.mod_lt c (show 0 < si by omega)
      by_cases hgt : fp + F ps (m * si - 1) > fp + F ps c
      · have hcm : c < m * si - 1 := by
          apply Classical.byContradiction
          intro hh
          have := F_mono ps (show m * si - 1 ≤ c by omega)
          omega
        have hqm : c / si + 1 ≤ m := by
          have : c / si < m := by
            rw [Nat.div_lt_iff_lt_mul (by omega)]; omega
          omega
        have hnum : (c : Int) + (-1 - Int.tmod (skAt si fp pp ps { s with haveSkipped := true } j).count (skAt si fp pp ps { s with haveSkipped := true } j).si + ((si * (m + 1 - max j (c / si + 1)) : Nat) : Int)) = ((m * si - 1 : Nat) : Int) := by
          have e1 : (skAt si fp pp ps { s with haveSkipped := true } j).si = si := hs.siF
          rw [hcnt, e1, Nat.max_eq_right hq]
          have e2 : Int.tmod (c : Int) (si : Int) = ((c % si : Nat) : Int) := rfl
          rw [e2, show m + 1 - (c / si + 1) = m - c / si by omega, Nat.mul_sub]
          have : si * m = m * si := Nat.mul_comm _ _
          have : si * (c / si) ≤ si * m := Nat.mul_le_mul_left _ (by omega)
          omega
        rw [if_pos (by rw [hfrqAt]; exact hgt)]
        refine ⟨_, m * si - 1, [], rfl, hcore (m * si - 1) (by omega) _ ?_ ?_ ?_ ?_ ?_ ?_ ?_ ?_ ?_ ?_ ?_ ?_ ?_ ?_, ?_, fun hp => ?_, by omega, ?_, ?_, ?_⟩
        iterate 11 (split <;> rfl)
        · show (if (skAt si fp pp ps { s with haveSkipped := true } j').isPos = true then _ else _ : STDE).count + _ = _
          rw [← hnum]
          split
          · show s.count + _ = _; rw [hs.count]
          · show s.count + _ = _; rw [hs.count]
        · rfl
        · split <;> rfl
        · have e1 : ((j' : Int) - 1) * si ≤ ((m * si - 1 : Nat) : Int) + 1 := by
            have : ((j' : Int) - 1) * si ≤ (m : Int) * si := Int.mul_le_mul_of_nonneg_right (by omega) (by omega)
            have e : (m : Int) * si = ((m * si : Nat) : Int) := by rw [Int.natCast_mul]
            omega
          split
          · show ((j' : Int) - 1) * s.si ≤ _; rw [hs.siF]; exact e1
          · show ((j' : Int) - 1) * s.si ≤ _; rw [hs.siF]; exact e1
        · by_cases hp' : s.isPos = true
          · have : (skAt si fp pp ps { s with haveSkipped := true } j').isPos = true := hp'
            rw [if_pos this]
            exact ⟨rfl, rfl, rfl, fun x hx => nomatch hx⟩
          · exfalso
            apply hp'
            revert hp
            split <;> exact id
        · intro i p hi1 hi2 hi3
          have : p.doc ≤ D ps (m * si - 1) := by
            rw [← D_succ hi3]
            exact D_le h.ok (by omega) (by omega)
          omega
        · split <;> rfl
        · split <;> rfl
      · refine stay _ hgt ?_
        have hcm : m * si - 1 ≤ c := by
          apply Classical.byContradiction
          intro hh
          have := F_lt ps (show c < m * si - 1 by omega) (by omega)
          omega
        have : ((j' : Int) - 1) * si ≤ (m : Int) * si := Int.mul_le_mul_of_nonneg_right (by omega) (by omega)
        have e : (m : Int) * si = ((m * si : Nat) : Int) := by rw [Int.natCast_mul]
        omega
  · rw [if_neg hg]
    exact same

/-- The first live document at or after the target among those not yet read. -/
def from' (dead : Nat → Bool) (ps : List Posting) (c : Nat) (target : Int) : List Posting := (live dead (ps.drop c)).dropWhile fun p => decide ((p.doc : Int) < target)

structure Skipped (frq prx : List Byte) (si fp pp : Nat) (ps : List Posting) (dead : Nat → Bool) (target : Int) (s : STDE) (c : Nat) (s' : STDE) (b : Bool) : Prop where
  same : s'.isPos = s.isPos ∧ s'.del = s.del
  found : (b = true ∧ ∃ c' p, ps[c']? = some p ∧ from' dead ps c target = p :: live dead (ps.drop (c' + 1)) ∧
      Core frq prx si fp pp ps s' (c' + 1) ∧ SkOK s' (c' + 1) ∧ s'.freq = p.freq ∧ (s.isPos = true → Prx prx pp ps s' (c' + 1) p.occ ∧ s'.position = 0)) ∨
    (b = false ∧ from' dead ps c target = [] ∧ Core frq prx si fp pp ps s' ps.length ∧ SkOK s' ps.length ∧ (s.isPos = true → Prx prx pp ps s' ps.length []))

theorem skOK_end {frq prx : List Byte} {si fp pp : Nat} {ps : List Posting} {s : STDE} {c : Nat} (hs : Core frq prx si fp pp ps s c) : SkOK s ps.length := by
  obtain ⟨j, j1, j2, -⟩ := hs.skip
  unfold SkOK
  rw [j1, hs.siF]
  have h1 : j * si ≤ ps.length := Nat.le_trans (Nat.mul_le_mul_right si j2) (Nat.div_mul_le_self _ _)
  have h2 : ((j : Int) - 1) * si ≤ (j : Int) * si := Int.mul_le_mul_of_nonneg_right (by omega) (by omega)
  have e : (j : Int) * si = ((j * si : Nat) : Int) := by rw [Int.natCast_mul]
  omega

theorem scanLoop_spec {frq prx : List Byte} {si fp pp : Nat} {ps : List Posting} (h : At frq prx si fp pp ps) {dead : Nat → Bool} (target : Int) : ∀ (fuel : Nat) {s : STDE} {c : Nat} {left : List Int},
    Core frq prx si fp pp ps s c → (s.skipCount - 1) * s.si ≤ (c : Int) + 1 → Deletes s.del dead → (s.isPos = true → Prx prx pp ps s c left) → ps.length - c < fuel →
    ∃ s' b, scanLoop target fuel s = .ok (s', b) ∧ Skipped frq prx si fp pp ps dead target s c s' b := by
  intro fuel
  induction fuel with
  | zero => intro s c left _ _ _ _ hf; omega
  | succ fuel ih =>
    intro s c left hs hsk hdel hprx hf
    obtain ⟨s1, b1, e1, ⟨a1, a2, a3⟩, hfo⟩ := next_spec h hs hdel hprx
    unfold scanLoop
    rw [e1, Res.ok_bind]
    dsimp only
    rcases hfo with ⟨rfl, c', p, c1, c2, c3, c4, c5, c6, c7⟩ | ⟨rfl, c1, c2, c3⟩
    · rw [if_pos rfl]
      have hdoc : s1.docNum = p.doc := by rw [c5.docNum, D_succ c2]
      have hb : (s1.skipCount - 1) * s1.si ≤ ((c' + 1 : Nat) : Int) := by
        rw [a3, c5.siF]
        rw [hs.siF] at hsk
        exact Int.le_trans hsk (by omega)
      by_cases ht : target > s1.docNum
      · rw [if_pos ht]
        obtain ⟨s2, b2, e2, ⟨d1, d2⟩, d3⟩ := ih c5 (Int.le_trans hb (by omega)) (a2 ▸ hdel) (fun hp => (c7 (a1.symm.trans hp)).1) (by have := c5.le; omega)
        refine ⟨s2, b2, e2, ⟨d1.trans a1, d2.trans a2⟩, ?_⟩
        have hfr : from' dead ps c target = from' dead ps (c' + 1) target := by
          unfold from'
          rw [c4, List.dropWhile_cons, if_pos (by rw [hdoc] at ht; simpa using ht)]
        rw [hfr]
        rcases d3 with ⟨g1, c'', p', g2, g3, g4, g5, g6, g7⟩ | ⟨g1, g2, g3, g4, g5⟩
        · exact Or.inl ⟨g1, c'', p', g2, g3, g4, g5, g6, fun hp => g7 (a1.trans hp)⟩
        · exact Or.inr ⟨g1, g2, g3, g4, fun hp => g5 (a1.trans hp)⟩
      · rw [if_neg ht]
        refine ⟨s1, true, rfl, ⟨a1, a2⟩, Or.inl ⟨rfl, c', p, c2, ?_, c5, hb, c6, c7⟩⟩
        unfold from'
        rw [c4, List.dropWhile_cons, if_neg (by rw [hdoc] at ht; simpa using ht)]
    · rw [if_neg (by decide)]
      refine ⟨s1, false, rfl, ⟨a1, a2⟩, Or.inr ⟨rfl, ?_, c2, skOK_end c2, c3⟩⟩
      unfold from'
      rw [c1]; rfl

/-- skip_to from any state. -/
theorem skipTo_spec {frq prx : List Byte} {si fp pp : Nat} {ps : List Posting} (h : At frq prx si fp pp ps) (h3 : 3 ≤ si) {dead : Nat → Bool} (target : Int) {s : STDE} {c : Nat} {left : List Int}
    (hs : Core frq prx si fp pp ps s c) (hsk : SkOK s c) (hdel : Deletes s.del dead) (hprx : s.isPos = true → Prx prx pp ps s c left) :
    ∃ s' b, skipTo s target = .ok (s', b) ∧ Skipped frq prx si fp pp ps dead target s c s' b := by
  obtain ⟨s1, c1, left1, e1, a1, a2, a3, a4, a5, a6, a7⟩ := skipAhead_spec h h3 hs hsk hprx target
  unfold skipTo
  rw [e1, Res.ok_bind]
  obtain ⟨s2, b, e2, ⟨d1, d2⟩, d3⟩ := scanLoop_spec h target ((s1.docFreq - s1.count).toNat + 1) a1 a2 (a7 ▸ hdel) a3 (by rw [a1.docFreq, a1.count]; omega)
  refine ⟨s2, b, e2, ⟨d1.trans a6, d2.trans a7⟩, ?_⟩
  have key : ∀ k, c + k ≤ c1 → from' dead ps c target = from' dead ps (c + k) target := by
    intro k
    induction k with
    | zero => intro _; rfl
    | succ k ih =>
      intro hk
      rw [ih (by omega)]
      have hlt : c + k < ps.length := by have := a1.le; omega
      have hp : ps[c + k]? = some ps[c + k] := List.getElem?_eq_getElem hlt
      have hd := a5 (c + k) _ (by omega) (by omega) hp
      unfold from'
      rw [live_drop hp]
      split
      · rfl
      · rw [List.dropWhile_cons, if_pos (by simpa using hd)]; rfl
  have := key (c1 - c) (by omega)
  rw [show c + (c1 - c) = c1 by omega] at this
  rw [this]
  rcases d3 with ⟨g1, c'', p', g2, g3, g4, g5, g6, g7⟩ | ⟨g1, g2, g3, g4, g5⟩
  · exact Or.inl ⟨g1, c'', p', g2, g3, g4, g5, g6, fun hp => g7 (a6.trans hp)⟩
  · exact Or.inr ⟨g1, g2, g3, g4, fun hp => g5 (a6.trans hp)⟩

end Ferret.Post
