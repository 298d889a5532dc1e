import Verif.Model.BitVector

namespace Ferret.BitVector

/-- The logical bit at index `i`: stored bit when the word is allocated, else the tail bit. -/
def bitAt (bits : List Word) (ext : Bool) (i : Nat) : Bool :=
  match bits[i / 32]? with
  | some w => w.getLsbD (i % 32)
  | none => ext

/-- Representation invariant: allocated, size within the allocation, and every stored bit
past `size` equals the tail bit. -/
structure WF (bv : BV) : Prop where
  pos : 0 < bv.bits.length
  size_le : bv.size ≤ 32 * bv.bits.length
  tail : ∀ i, bv.size ≤ i → bitAt bv.bits bv.ext i = bv.ext

theorem getLsbD_fillWord (e : Bool) (i : Nat) (h : i < 32) : (fillWord e).getLsbD i = e := by
  cases e
  · simp [fillWord]
  · simp only [fillWord, if_true]; rw [BitVec.getLsbD_allOnes]; simp [h]

theorem growLoop_gt (fuel c w : Nat) (hc : 0 < c) (hf : w + 1 ≤ fuel + c) :
    w < growLoop fuel c w ∧ c ≤ growLoop fuel c w := by
  induction fuel generalizing c with
  | zero => simp only [growLoop]; omega
  | succ n ih =>
    simp only [growLoop]
    split
    · have := ih (2 * c) (by omega) (by omega); omega
    · omega

theorem growCapa_gt (c w : Nat) (hc : 0 < c) : w < growCapa c w ∧ c ≤ growCapa c w :=
  growLoop_gt _ _ _ hc (by omega)

theorem bitAt_replicate_append (bits : List Word) (e : Bool) (n i : Nat) :
    bitAt (bits ++ List.replicate n (fillWord e)) e i = bitAt bits e i := by
  unfold bitAt
  by_cases h : i / 32 < bits.length
  · rw [List.getElem?_append_left h]
  · rw [List.getElem?_append_right (by omega), List.getElem?_eq_none (by omega : bits.length ≤ i / 32)]
    by_cases h2 : i / 32 - bits.length < n
    · rw [List.getElem?_replicate]; simp [h2]
      exact getLsbD_fillWord e _ (Nat.mod_lt _ (by decide))
    · rw [List.getElem?_eq_none (by simp; omega)]

theorem div_mod_eq {i j : Nat} (h1 : i / 32 = j / 32) (h2 : i % 32 = j % 32) : i = j := by omega

theorem getLsbD_one_shift (k j : Nat) (hj : j < 32) :
    ((1#32 <<< k).getLsbD j) = decide (j = k) := by
  rw [BitVec.getLsbD_shiftLeft]
  simp [BitVec.getLsbD_one]
  by_cases h : j = k
  · subst h; simp [hj]
  · simp [h]; omega

theorem bitAt_set (bits : List Word) (e : Bool) (i j : Nat) (w : Word)
    (hw : i / 32 < bits.length) :
    bitAt (bits.set (i / 32) w) e j = if j / 32 = i / 32 then w.getLsbD (j % 32) else bitAt bits e j := by
  unfold bitAt
  rw [List.getElem?_set]
  by_cases h : i / 32 = j / 32
  · simp [h, h ▸ hw]
  · have : ¬ j / 32 = i / 32 := fun h' => h h'.symm
    simp [h, this]

/-- Growth part of `setValue`. -/
def grow (bv : BV) (i : Nat) : BV :=
  if i ≥ bv.size then
    let bv' := { bv with size := i + 1 }
    if i / 32 ≥ bv.bits.length then
      let capa := growCapa (2 * bv.bits.length) (i / 32)
      { bv' with bits := bv.bits ++ List.replicate (capa - bv.bits.length) (fillWord bv.ext) }
    else bv'
  else bv

theorem grow_spec (bv : BV) (i : Nat) (h : WF bv) :
    i / 32 < (grow bv i).bits.length ∧ (grow bv i).size = max bv.size (i + 1) ∧
    (grow bv i).ext = bv.ext ∧ (grow bv i).count = bv.count ∧ (grow bv i).currBit = bv.currBit ∧
    bv.bits.length ≤ (grow bv i).bits.length ∧
    ∀ j, bitAt (grow bv i).bits bv.ext j = bitAt bv.bits bv.ext j := by
  obtain ⟨hp, hs, ht⟩ := h
  unfold grow
  by_cases h1 : i ≥ bv.size
  · by_cases h2 : i / 32 ≥ bv.bits.length
    · have hg := growCapa_gt (2 * bv.bits.length) (i / 32) (by omega)
      simp only [h1, h2, if_true]
      refine ⟨by simp; omega, by omega, trivial, trivial, trivial, by simp, fun j => bitAt_replicate_append _ _ _ _⟩
    · simp only [h1, h2, if_true, if_false]
      refine ⟨by omega, by omega, trivial, trivial, trivial, by omega, fun j => trivial⟩
  · simp only [h1, if_false]
    refine ⟨by omega, by omega, trivial, trivial, trivial, by omega, fun j => trivial⟩

theorem setValue_ok (bv : BV) (i : Nat) (v : Bool) (h : WF bv) :
    ∃ bv', setValue bv (i : Int) v = .ok bv' ∧ WF bv' ∧ bv'.size = max bv.size (i + 1) ∧
      bv'.ext = bv.ext ∧ bv'.currBit = bv.currBit ∧ bv.bits.length ≤ bv'.bits.length ∧
      (∀ j, bitAt bv'.bits bv'.ext j = if j = i then v else bitAt bv.bits bv.ext j) ∧
      bv'.count = bv.count + (v.toNat : Int) - ((bitAt bv.bits bv.ext i).toNat : Int) := by
  obtain ⟨g1, g2, g3, g4, g4b, g5, g6⟩ := grow_spec bv i h
  have hdef : setValue bv (i : Int) v =
      (match (grow bv i).bits[i / 32]? with
      | none => .ub
      | some w =>
        if w.getLsbD (i % 32) ≠ v then
          if v then
            .ok { grow bv i with count := (grow bv i).count + 1, bits := (grow bv i).bits.set (i / 32) (w ||| (1#32 <<< (i % 32))) }
          else
            .ok { grow bv i with count := (grow bv i).count - 1, bits := (grow bv i).bits.set (i / 32) (w &&& ~~~(1#32 <<< (i % 32))) }
        else .ok (grow bv i)) := rfl
  rw [hdef, List.getElem?_eq_getElem g1]
  simp only []
  have hm : i % 32 < 32 := Nat.mod_lt _ (by decide)
  have hbit : ((grow bv i).bits[i / 32]).getLsbD (i % 32) = bitAt bv.bits bv.ext i := by
    rw [← g6 i]; unfold bitAt; rw [List.getElem?_eq_getElem g1]
  have key : ∀ (w' : Word) (c : Int), (∀ j, j < 32 → w'.getLsbD j = if j = i % 32 then v else ((grow bv i).bits[i / 32]).getLsbD j) →
      WF { grow bv i with count := c, bits := (grow bv i).bits.set (i / 32) w' } ∧
      (∀ j, bitAt ((grow bv i).bits.set (i / 32) w') bv.ext j = if j = i then v else bitAt bv.bits bv.ext j) := by
    intro w' c hw'
    have hb : ∀ j, bitAt ((grow bv i).bits.set (i / 32) w') bv.ext j = if j = i then v else bitAt bv.bits bv.ext j := by
      intro j
      rw [bitAt_set _ _ _ _ _ g1]
      by_cases hj : j / 32 = i / 32
      · rw [if_pos hj, hw' _ (Nat.mod_lt _ (by decide))]
        by_cases hj2 : j % 32 = i % 32
        · have : j = i := div_mod_eq hj hj2
          simp [this]
        · have : j ≠ i := fun h => hj2 (by rw [h])
          rw [if_neg hj2, if_neg this, ← g6 j]
          unfold bitAt
          rw [hj, List.getElem?_eq_getElem g1]
      · have : j ≠ i := fun h => hj (by rw [h])
        rw [if_neg hj, if_neg this, g6]
    refine ⟨⟨?_, ?_, ?_⟩, hb⟩
    · simp; omega
    · simp [g2]; have := h.size_le; omega
    · intro j hj
      simp only [g3] at *
      rw [hb]
      simp only [g2] at hj
      rw [if_neg (by omega)]
      exact h.tail j (by omega)
  by_cases hv : (grow bv i).bits[i / 32].getLsbD (i % 32) ≠ v
  · rw [if_pos hv]
    cases v
    · have hk := key ((grow bv i).bits[i / 32] &&& ~~~(1#32 <<< (i % 32))) ((grow bv i).count - 1) (by
        intro j hj
        rw [BitVec.getLsbD_and, BitVec.getLsbD_not, getLsbD_one_shift _ _ hj]
        by_cases hj2 : j = i % 32 <;> simp [hj2, hj])
      refine ⟨_, rfl, hk.1, g2, g3, g4b, by simpa using g5, by simpa [g3] using hk.2, ?_⟩
      rw [← hbit]
      simp at hv
      simp [hv, g4]
    · have hk := key ((grow bv i).bits[i / 32] ||| (1#32 <<< (i % 32))) ((grow bv i).count + 1) (by
        intro j hj
        rw [BitVec.getLsbD_or, getLsbD_one_shift _ _ hj]
        by_cases hj2 : j = i % 32 <;> simp [hj2])
      refine ⟨_, rfl, hk.1, g2, g3, g4b, by simpa using g5, by simpa [g3] using hk.2, ?_⟩
      rw [← hbit]
      simp at hv
      simp [hv, g4]
  · rw [if_neg hv]
    simp at hv
    have hk := key (grow bv i).bits[i / 32] (grow bv i).count (by
      intro j hj; by_cases hj2 : j = i % 32 <;> simp [hj2, hv])
    have hset : (grow bv i).bits.set (i / 32) (grow bv i).bits[i / 32] = (grow bv i).bits := by
      apply List.set_getElem_self
    rw [hset] at hk
    refine ⟨_, rfl, hk.1, g2, g3, g4b, g5, by rw [g3]; exact hk.2, ?_⟩
    rw [← hbit, hv, g4]; omega

theorem get_ok (bv : BV) (i : Nat) (h : WF bv) : get bv (i : Int) = .ok (bitAt bv.bits bv.ext i) := by
  show (if i ≥ bv.size then Res.ok bv.ext else match bv.bits[i / 32]? with
      | none => .ub
      | some w => .ok (w.getLsbD (i % 32))) = _
  by_cases hi : i ≥ bv.size
  · rw [if_pos hi, h.tail i hi]
  · rw [if_neg hi]
    have := h.size_le
    unfold bitAt
    rw [List.getElem?_eq_getElem (by omega)]

theorem bitAt_replicate_zero (n i : Nat) : bitAt (List.replicate n 0#32) false i = false := by
  unfold bitAt; rw [List.getElem?_replicate]
  by_cases h : i / 32 < n <;> simp [h]

theorem wf_newCapa (c : Nat) : WF (newCapa c) := by
  refine ⟨?_, ?_, ?_⟩
  · simp [newCapa]; omega
  · simp [newCapa]
  · intro i _; exact bitAt_replicate_zero _ _

theorem wf_clear (bv : BV) (h : WF bv) : WF (clear bv) := by
  refine ⟨by simpa [clear] using h.pos, by simp [clear], ?_⟩
  intro i _; exact bitAt_replicate_zero _ _

/-- Number of `i < n` with `f i`. -/
def cnt (f : Nat → Bool) (n : Nat) : Nat := ((List.range n).filter f).length

theorem cnt_succ (f : Nat → Bool) (n : Nat) : cnt f (n + 1) = cnt f n + (f n).toNat := by
  unfold cnt; rw [List.range_succ, List.filter_append, List.length_append]
  cases h : f n <;> simp [List.filter, h]

theorem cnt_congr {f g : Nat → Bool} {n : Nat} (h : ∀ i, i < n → f i = g i) : cnt f n = cnt g n := by
  induction n with
  | zero => rfl
  | succ n ih => rw [cnt_succ, cnt_succ, ih (fun i hi => h i (by omega)), h n (by omega)]

theorem cnt_mono_bound {f : Nat → Bool} {n m : Nat} (h : ∀ j, f j = true → j < n) (hm : n ≤ m) :
    cnt f m = cnt f n := by
  induction m with
  | zero => have : n = 0 := by omega
            rw [this]
  | succ m ih =>
    by_cases hn : n = m + 1
    · rw [hn]
    · rw [cnt_succ, ih (by omega)]
      have : f m = false := by
        cases hf : f m
        · rfl
        · exact absurd (h m hf) (by omega)
      simp [this]

theorem cnt_update (f : Nat → Bool) (i n : Nat) (v : Bool) (h : i < n) :
    cnt (fun j => if j = i then v else f j) n + (f i).toNat = cnt f n + v.toNat := by
  induction n with
  | zero => omega
  | succ n ih =>
    rw [cnt_succ, cnt_succ]
    by_cases hi : i = n
    · subst hi
      have : cnt (fun j => if j = i then v else f j) i = cnt f i := cnt_congr (by
        intro j hj; simp [show j ≠ i by omega])
      simp [this]; omega
    · have := ih (by omega)
      simp [show n ≠ i by omega]; omega

/-- The count field is the number of set bits (meaningful for vectors with a zero tail). -/
def CountOK (bv : BV) : Prop :=
  ∀ n, (∀ j, bitAt bv.bits bv.ext j = true → j < n) → bv.count = (cnt (bitAt bv.bits bv.ext) n : Nat)

theorem countOK_setValue {bv bv' : BV} {i : Nat} {v : Bool} (hc : CountOK bv)
    (hwf : WF bv) (hext : bv.ext = false)
    (hb : ∀ j, bitAt bv'.bits bv'.ext j = if j = i then v else bitAt bv.bits bv.ext j)
    (hcount : bv'.count = bv.count + (v.toNat : Int) - ((bitAt bv.bits bv.ext i).toNat : Int)) :
    CountOK bv' := by
  intro n hn
  have hN : ∀ j, bitAt bv.bits bv.ext j = true → j < max (max n (i + 1)) bv.size := by
    intro j hj
    by_cases hjs : bv.size ≤ j
    · rw [hwf.tail j hjs, hext] at hj; exact absurd hj (by simp)
    · omega
  have h1 := hc _ hN
  have h2 := cnt_update (bitAt bv.bits bv.ext) i (max (max n (i + 1)) bv.size) v (by omega)
  have h3 : bitAt bv'.bits bv'.ext = fun j => if j = i then v else bitAt bv.bits bv.ext j := funext hb
  have h4 := cnt_mono_bound (m := max (max n (i + 1)) bv.size) hn (by omega)
  rw [h3] at h4 ⊢
  rw [hcount, h1]
  omega

theorem countOK_zero {bv : BV} (h : ∀ j, bitAt bv.bits bv.ext j = false) (hc : bv.count = 0) : CountOK bv := by
  intro n _
  have : cnt (bitAt bv.bits bv.ext) n = 0 := by
    unfold cnt
    rw [List.length_eq_zero_iff, List.filter_eq_nil_iff]
    intro a _; simp [h a]
  omega

end Ferret.BitVector
