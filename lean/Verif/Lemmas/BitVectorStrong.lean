import Verif.Lemmas.BitVectorCount

namespace Ferret.BitVector

theorem recount_inv {D r : BV} (h : recount D = .ok r) : ∃ c, r = { D with count := c } := by
  unfold recount at h
  simp only [] at h
  split at h
  · simp at h
  · split at h
    · simp at h
    · injection h with h; exact ⟨_, h.symm⟩

theorem countOK_of_recount {D r : BV} (h : recount D = .ok r) (hwf : WF r) (he : r.ext = false) : CountOK r := by
  obtain ⟨c, hc⟩ := recount_inv h
  have hD : WF D := by
    refine ⟨?_, ?_, ?_⟩
    · have := hwf.pos; rw [hc] at this; exact this
    · have := hwf.size_le; rw [hc] at this; exact this
    · intro i hi; have := hwf.tail i (by rw [hc]; exact hi); rw [hc] at this; exact this
  have hDe : D.ext = false := by rw [hc] at he; exact he
  intro n hn
  have := recount_exact D r hD h n (by
    intro j hj
    apply hn
    rw [hc]; simp only []
    rw [hDe] at hj ⊢; simpa using hj)
  rw [this, hc]
  simp only [hDe, Bool.xor_false]

theorem setCapa_zero (bv : BV) (capa size : Nat) (h0 : ∀ w ∈ bv.bits, w = 0#32) (he : bv.ext = false) :
    ∀ w ∈ (setCapa bv capa size).bits, w = 0#32 := by
  unfold setCapa
  simp only []
  split
  · intro w hw
    simp only [List.mem_append] at hw
    rcases hw with hw | hw
    · have := List.mem_of_mem_take hw
      rw [List.mem_append] at this
      rcases this with h | h
      · exact h0 w h
      · rw [List.eq_of_mem_replicate h, he]; rfl
    · rw [List.eq_of_mem_replicate hw, he]; rfl
  · exact h0

theorem op_strong (o : Op) (a b : BV) (ha : WFw a) (hb : WFw b) (he : o.bool a.ext b.ext = false) :
    ∃ r, op o a b = .ok r ∧ WF r ∧ CountOK r ∧ r.ext = false ∧ r.size = max a.size b.size ∧
      ∀ i, lg r i = o.bool (lg a i) (lg b i) := by
  obtain ⟨r, h, hw, hx, hs, hg, c, hr⟩ := opInto_ok o new a b ha hb
  have hla := lw_length ha.size_le
  have hlb := lw_length hb.size_le
  have hcl : (combine o (lw a) a.ext (lw b) b.ext).length = toWord (max a.size b.size) := by
    rw [combine_length, hla, hlb, toWord_max]
  have hrd : ∃ D, recount D = .ok r := by
    unfold opInto at h
    split at h
    · simp at h
    · exact ⟨_, h⟩
  have hz := setCapa_zero { new with ext := o.bool a.ext b.ext } (max (round2 (toWord (max a.size b.size))) 4) (max a.size b.size)
    (by intro w hw; exact List.eq_of_mem_replicate hw) he
  have hlen := setCapa_length { new with ext := o.bool a.ext b.ext } (max (round2 (toWord (max a.size b.size))) 4) (max a.size b.size)
    (by have := round2_gt (toWord (max a.size b.size)); omega)
  have hsl := hw.size_le
  have hxe : r.ext = false := by rw [hx, he]
  have hbl : max (round2 (toWord (max a.size b.size))) 4 ≤ r.bits.length := by
    rw [hr]; simp only []
    rw [storeWords_length]
    · exact hlen
    · refine Nat.le_trans ?_ hlen; rw [hcl]; have := round2_gt (toWord (max a.size b.size)); omega
  have hwf : WF r := by
    refine ⟨by omega, by unfold toWord at hsl; omega, ?_⟩
    intro i hi
    by_cases hi2 : i / 32 < toWord r.size
    · have h1 := hw.tail i hi
      unfold lg lw at h1
      rw [bitAt_take, if_pos hi2] at h1; exact h1
    · unfold bitAt
      cases hgi : r.bits[i / 32]? with
      | none => rfl
      | some w =>
        simp only []
        have hmem : w = 0#32 := by
          rw [hr] at hgi
          simp only [storeWords] at hgi
          rw [List.getElem?_append_right (by rw [hcl]; rw [hs] at hi2; omega)] at hgi
          exact hz w (List.mem_of_mem_drop (List.mem_of_getElem? hgi))
        rw [hmem, hxe]; simp
  obtain ⟨D, hD⟩ := hrd
  exact ⟨r, h, hwf, countOK_of_recount hD hwf hxe, hxe, hs, hg⟩

theorem not_strong (a : BV) (ha : WFw a) (he : a.ext = true) :
    ∃ r, not a = .ok r ∧ WF r ∧ CountOK r ∧ r.ext = false ∧ ∀ i, lg r i = !lg a i := by
  obtain ⟨r, h, hw, hx, _, hg⟩ := notInto_ok new a ha
  have hxe : r.ext = false := by rw [hx, he]; rfl
  have hrd : ∃ D, recount D = .ok r := by
    unfold notInto at h
    split at h
    · simp at h
    · exact ⟨_, h⟩
  obtain ⟨D, hD⟩ := hrd
  exact ⟨r, h, hw, countOK_of_recount hD hw hxe, hxe, hg⟩

end Ferret.BitVector
