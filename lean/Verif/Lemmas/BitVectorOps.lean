import Verif.Lemmas.BitVector

namespace Ferret.BitVector

/-- The words in use. -/
def lw (bv : BV) : List Word := bv.bits.take (toWord bv.size)

/-- Logical bit: words in use, tail bit beyond. -/
def lg (bv : BV) (i : Nat) : Bool := bitAt (lw bv) bv.ext i

/-- Weak invariant: only the words in use are constrained. -/
structure WFw (bv : BV) : Prop where
  size_le : toWord bv.size ≤ bv.bits.length
  tail : ∀ i, bv.size ≤ i → lg bv i = bv.ext

theorem toWord_mono {a b : Nat} (h : a ≤ b) : toWord a ≤ toWord b := by
  unfold toWord; omega

theorem toWord_max (a b : Nat) : toWord (max a b) = max (toWord a) (toWord b) := by
  unfold toWord; omega

theorem toWord_min (a b : Nat) : toWord (min a b) = min (toWord a) (toWord b) := by
  unfold toWord; omega

theorem lw_length {bv : BV} (h : toWord bv.size ≤ bv.bits.length) : (lw bv).length = toWord bv.size := by
  unfold lw; rw [List.length_take]; omega

theorem bitAt_take (bits : List Word) (e : Bool) (n i : Nat) :
    bitAt (bits.take n) e i = if i / 32 < n then bitAt bits e i else e := by
  unfold bitAt
  rw [List.getElem?_take]
  by_cases h : i / 32 < n <;> simp [h]

theorem WF.lg_eq {bv : BV} (h : WF bv) (i : Nat) : lg bv i = bitAt bv.bits bv.ext i := by
  unfold lg lw
  rw [bitAt_take]
  split
  · rfl
  · rename_i hi
    rw [h.tail i (by unfold toWord at hi; omega)]

theorem WF.weak {bv : BV} (h : WF bv) : WFw bv := by
  refine ⟨?_, ?_⟩
  · have := h.size_le; unfold toWord; omega
  · intro i hi; rw [h.lg_eq, h.tail i hi]

theorem WFw.get_ok {bv : BV} (h : WFw bv) (i : Nat) : get bv (i : Int) = .ok (lg bv i) := by
  show (if i ≥ bv.size then Res.ok bv.ext else match bv.bits[i / 32]? with
      | none => .ub
      | some w => .ok (w.getLsbD (i % 32))) = _
  have h1 := h.size_le
  by_cases hi : i ≥ bv.size
  · rw [if_pos hi, h.tail i hi]
  · rw [if_neg hi]
    unfold lg lw
    rw [bitAt_take]
    have : i / 32 < toWord bv.size := by unfold toWord; omega
    rw [if_pos this]
    unfold bitAt
    rw [List.getElem?_eq_getElem (by omega)]

/-- What `FRT_BV_OP` stores, as a function of the two lists of words in use. -/
def combine (o : Op) (A : List Word) (ea : Bool) (B : List Word) (eb : Bool) : List Word :=
  match A, B with
  | [], bs => bs.map (o.extWord ea)
  | as, [] => as.map (o.extWord eb)
  | x :: as, y :: bs => o.word x y :: combine o as ea bs eb

theorem Op.word_getLsbD (o : Op) (x y : Word) (i : Nat) :
    (o.word x y).getLsbD i = o.bool (x.getLsbD i) (y.getLsbD i) := by
  cases o <;> simp [Op.word, Op.bool]

theorem Op.bool_comm (o : Op) (x y : Bool) : o.bool x y = o.bool y x := by
  cases o <;> cases x <;> cases y <;> rfl

theorem Op.extWord_getLsbD (o : Op) (e : Bool) (w : Word) (i : Nat) (hi : i < 32) :
    (o.extWord e w).getLsbD i = o.bool e (w.getLsbD i) := by
  have h1 : (BitVec.allOnes 32).getLsbD i = true := by rw [BitVec.getLsbD_allOnes]; simp [hi]
  have h2 : (4294967295#32 : Word).getLsbD i = true := h1
  cases o <;> cases e <;> simp [Op.extWord, Op.bool, fillWord, -BitVec.getLsbD_eq_getElem, h2]

theorem combine_length (o : Op) (A : List Word) (ea : Bool) (B : List Word) (eb : Bool) :
    (combine o A ea B eb).length = max A.length B.length := by
  fun_induction combine o A ea B eb <;> simp_all <;> omega

theorem combine_bit (o : Op) (A : List Word) (ea : Bool) (B : List Word) (eb : Bool) (k i : Nat) (hi : i < 32) :
    (match (combine o A ea B eb)[k]? with | some w => w.getLsbD i | none => o.bool ea eb) =
    o.bool (match A[k]? with | some w => w.getLsbD i | none => ea)
           (match B[k]? with | some w => w.getLsbD i | none => eb) := by
  fun_induction combine o A ea B eb generalizing k with
  | case1 bs =>
    simp only [List.getElem?_map, List.getElem?_nil]
    cases bs[k]? <;> simp [Op.extWord_getLsbD _ _ _ _ hi]
  | case2 as h =>
    simp only [List.getElem?_map, List.getElem?_nil]
    cases as[k]? <;> simp [Op.extWord_getLsbD _ _ _ _ hi, Op.bool_comm]
  | case3 x as y bs ih =>
    cases k with
    | zero => simp [Op.word_getLsbD]
    | succ k => simpa using ih k

theorem bitAt_combine (o : Op) (A : List Word) (ea : Bool) (B : List Word) (eb : Bool) (i : Nat) :
    bitAt (combine o A ea B eb) (o.bool ea eb) i = o.bool (bitAt A ea i) (bitAt B eb i) :=
  combine_bit o A ea B eb (i / 32) (i % 32) (Nat.mod_lt _ (by decide))

/-- The zip/extension form used in the model equals `combine`. -/
theorem combine_eq (o : Op) (A B : List Word) (ea eb : Bool) :
    List.zipWith o.word (A.take (min A.length B.length)) (B.take (min A.length B.length)) ++
      (if A.length < B.length then (B.drop (min A.length B.length)).map (o.extWord ea)
       else if B.length < A.length then (A.drop (min A.length B.length)).map (o.extWord eb)
       else []) = combine o A ea B eb := by
  fun_induction combine o A ea B eb with
  | case1 bs =>
    cases bs <;> simp
  | case2 as h =>
    cases as with
    | nil => simp
    | cons a as => simp
  | case3 x as y bs ih =>
    rw [← ih]
    have : min (x :: as).length (y :: bs).length = min as.length bs.length + 1 := by simp
    rw [this]
    simp

theorem round2_gt (n : Nat) : n < round2 n := by
  unfold round2
  split
  · omega
  · exact Nat.lt_log2_self

theorem setCapa_length (bv : BV) (capa size : Nat) (h : toWord size ≤ capa) :
    capa ≤ (setCapa bv capa size).bits.length := by
  unfold setCapa
  by_cases h2 : bv.bits.length < capa
  · simp only [h2, if_true]
    simp; omega
  · simp only [h2, if_false]; omega

theorem setCapa_ext (bv : BV) (capa size : Nat) : (setCapa bv capa size).ext = bv.ext := by
  unfold setCapa; split <;> rfl

theorem setCapa_size (bv : BV) (capa size : Nat) : (setCapa bv capa size).size = size := by
  unfold setCapa; split <;> rfl

theorem recount_ok (bv : BV) (h : bv.size / 32 < bv.bits.length) :
    ∃ c, recount bv = .ok { bv with count := c } := by
  unfold recount
  simp only []
  rw [if_neg (by omega), List.getElem?_eq_getElem h]
  exact ⟨_, rfl⟩

theorem lw_storeWords (bits ws : List Word) (n : Nat) (h : ws.length = n) :
    (storeWords bits ws).take n = ws := by
  unfold storeWords; rw [← h]; simp

theorem storeWords_length (bits ws : List Word) (h : ws.length ≤ bits.length) :
    (storeWords bits ws).length = bits.length := by
  unfold storeWords; simp; omega

theorem opInto_ok (o : Op) (dst a b : BV) (ha : WFw a) (hb : WFw b) :
    ∃ r, opInto o dst a b = .ok r ∧ WFw r ∧ r.ext = o.bool a.ext b.ext ∧
      r.size = max a.size b.size ∧
      (∀ i, lg r i = o.bool (lg a i) (lg b i)) ∧
      ∃ c, r = { setCapa { dst with ext := o.bool a.ext b.ext } (max (round2 (toWord (max a.size b.size))) 4) (max a.size b.size) with
                 bits := storeWords (setCapa { dst with ext := o.bool a.ext b.ext } (max (round2 (toWord (max a.size b.size))) 4) (max a.size b.size)).bits (combine o (lw a) a.ext (lw b) b.ext),
                 count := c } := by
  have hla := lw_length ha.size_le
  have hlb := lw_length hb.size_le
  have hA : toWord a.size ≤ a.bits.length := ha.size_le
  have hB : toWord b.size ≤ b.bits.length := hb.size_le
  have hcomb : List.zipWith o.word (a.bits.take (toWord (min a.size b.size))) (b.bits.take (toWord (min a.size b.size))) ++
      (if toWord a.size < toWord b.size then
        ((b.bits.take (toWord (max a.size b.size))).drop (toWord (min a.size b.size))).map (o.extWord a.ext)
      else if toWord b.size < toWord a.size then
        ((a.bits.take (toWord (max a.size b.size))).drop (toWord (min a.size b.size))).map (o.extWord b.ext)
      else []) = combine o (lw a) a.ext (lw b) b.ext := by
    rw [← combine_eq, hla, hlb, toWord_min, toWord_max]
    unfold lw
    rw [List.take_take, List.take_take]
    have e1 : min (min (toWord a.size) (toWord b.size)) (toWord a.size) = min (toWord a.size) (toWord b.size) := by omega
    have e2 : min (min (toWord a.size) (toWord b.size)) (toWord b.size) = min (toWord a.size) (toWord b.size) := by omega
    rw [e1, e2]
    by_cases h1 : toWord a.size < toWord b.size
    · rw [if_pos h1, if_pos h1, show max (toWord a.size) (toWord b.size) = toWord b.size by omega]
    · rw [if_neg h1, if_neg h1]
      by_cases h2 : toWord b.size < toWord a.size
      · rw [if_pos h2, if_pos h2, show max (toWord a.size) (toWord b.size) = toWord a.size by omega]
      · rw [if_neg h2, if_neg h2]
  unfold opInto
  rw [if_neg (by omega)]
  simp only []
  rw [hcomb]
  have hcl : (combine o (lw a) a.ext (lw b) b.ext).length = toWord (max a.size b.size) := by
    rw [combine_length, hla, hlb, toWord_max]
  generalize hD : setCapa { dst with ext := o.bool a.ext b.ext } (max (round2 (toWord (max a.size b.size))) 4) (max a.size b.size) = D
  have hDe : D.ext = o.bool a.ext b.ext := by rw [← hD, setCapa_ext]
  have hDs : D.size = max a.size b.size := by rw [← hD, setCapa_size]
  have hr := round2_gt (toWord (max a.size b.size))
  have hDl : max (round2 (toWord (max a.size b.size))) 4 ≤ D.bits.length := by
    rw [← hD]; exact setCapa_length _ _ _ (by omega)
  have hsl := storeWords_length D.bits (combine o (lw a) a.ext (lw b) b.ext) (by omega)
  obtain ⟨c, hc⟩ := recount_ok { D with bits := storeWords D.bits (combine o (lw a) a.ext (lw b) b.ext) } (by
    simp only [hsl, hDs]; unfold toWord at hr hDl; omega)
  refine ⟨_, hc, ?_⟩
  have hlg : ∀ i, lg { D with bits := storeWords D.bits (combine o (lw a) a.ext (lw b) b.ext), count := c } i = o.bool (lg a i) (lg b i) := by
    intro i
    unfold lg
    rw [← bitAt_combine, hDe]
    congr 1
    unfold lw
    simp only [hDs]
    exact lw_storeWords _ _ _ hcl
  refine ⟨⟨?_, ?_⟩, hDe, hDs, hlg, c, rfl⟩
  · simp only [hsl, hDs]; omega
  · intro i hi
    simp only [hDs] at hi
    rw [hlg, ha.tail i (by omega), hb.tail i (by omega)]
    exact hDe.symm

theorem getLsbD_not' (w : Word) (i : Nat) (hi : i < 32) : (~~~w).getLsbD i = !w.getLsbD i := by
  rw [BitVec.getLsbD_not]; simp [hi]

theorem fillWord_not (e : Bool) : ~~~(fillWord e) = fillWord (!e) := by cases e <;> decide

theorem bitAt_map_not (ws : List Word) (e : Bool) (i : Nat) :
    bitAt (ws.map (fun w => ~~~w)) (!e) i = !bitAt ws e i := by
  unfold bitAt
  rw [List.getElem?_map]
  cases h : ws[i / 32]? with
  | none => rfl
  | some w => simp only [Option.map_some]; exact getLsbD_not' _ _ (Nat.mod_lt _ (by decide))

/-- `frt_bv_not_i`, both for a distinct destination and for the aliased one (where the
resized operand `D` carries the operand's words in use). -/
theorem not_ok_aux (a D : BV) (ha : WFw a) (hDe : D.ext = !a.ext) (hDs : D.size = a.size)
    (hDl : max (round2 (toWord a.size)) 4 ≤ D.bits.length) (src : List Word) (hsrc : src = lw a) :
    ∃ r, recount { D with bits := src.map (fun w => ~~~w) ++ List.replicate (D.bits.length - toWord a.size) (fillWord D.ext) } = .ok r ∧
      WF r ∧ r.ext = (!a.ext) ∧ r.size = a.size ∧ (∀ i, lg r i = !lg a i) := by
  have hla := lw_length ha.size_le
  have hr := round2_gt (toWord a.size)
  subst hsrc
  obtain ⟨c, hc⟩ := recount_ok { D with bits := (lw a).map (fun w => ~~~w) ++ List.replicate (D.bits.length - toWord a.size) (fillWord D.ext) } (by
    simp [hla, hDs]; unfold toWord at *; omega)
  refine ⟨_, hc, ?_⟩
  have hbit : ∀ i, bitAt ((lw a).map (fun w => ~~~w) ++ List.replicate (D.bits.length - toWord a.size) (fillWord D.ext)) D.ext i = !lg a i := by
    intro i
    rw [bitAt_replicate_append, hDe, bitAt_map_not]
    rfl
  have hwf : WF { D with bits := (lw a).map (fun w => ~~~w) ++ List.replicate (D.bits.length - toWord a.size) (fillWord D.ext), count := c } := by
    refine ⟨?_, ?_, ?_⟩
    · simp [hla]; omega
    · simp [hla, hDs]; unfold toWord at *; omega
    · intro i hi
      simp only [hDs] at hi
      rw [hbit, ha.tail i hi]
      exact hDe.symm
  refine ⟨hwf, hDe, hDs, ?_⟩
  intro i; rw [hwf.lg_eq]; exact hbit i

theorem notInto_ok (dst a : BV) (ha : WFw a) :
    ∃ r, notInto dst a = .ok r ∧ WF r ∧ r.ext = (!a.ext) ∧ r.size = a.size ∧ (∀ i, lg r i = !lg a i) := by
  unfold notInto
  have hA := ha.size_le
  rw [if_neg (by omega)]
  exact not_ok_aux a (setCapa { dst with ext := !a.ext } (max (round2 (toWord a.size)) 4) a.size) ha
    (by rw [setCapa_ext]) (by rw [setCapa_size])
    (setCapa_length _ _ _ (by have := round2_gt (toWord a.size); omega)) _ rfl

theorem setCapa_take (bv : BV) (capa size : Nat) (n : Nat) (hn : n ≤ toWord size) (hb : n ≤ bv.bits.length) :
    (setCapa bv capa size).bits.take n = bv.bits.take n := by
  unfold setCapa
  by_cases h2 : bv.bits.length < capa
  · simp only [h2, if_true]
    rw [List.take_append_of_le_length (by simp; omega), List.take_take, List.take_append_of_le_length (by omega)]
    congr 1; omega
  · simp only [h2, if_false]

theorem notInPlace_ok (a : BV) (ha : WFw a) :
    ∃ r, notInPlace a = .ok r ∧ WF r ∧ r.ext = (!a.ext) ∧ r.size = a.size ∧ (∀ i, lg r i = !lg a i) := by
  unfold notInPlace
  have hA := ha.size_le
  rw [if_neg (by omega)]
  exact not_ok_aux a (setCapa { a with ext := !a.ext } (max (round2 (toWord a.size)) 4) a.size) ha
    (by rw [setCapa_ext]) (by rw [setCapa_size])
    (setCapa_length _ _ _ (by have := round2_gt (toWord a.size); omega)) _
    (setCapa_take _ _ _ _ (Nat.le_refl _) hA)

/-- In-place binary operation: correct whenever the operand's own tail flag is not changed,
or the operand is at least as long (in words) as the other one. -/
theorem opInPlace_ok (o : Op) (a b : BV) (ha : WFw a) (hb : WFw b)
    (hsafe : o.bool a.ext b.ext = a.ext ∨ toWord b.size ≤ toWord a.size) :
    ∃ r, opInPlace o a b = .ok r ∧ WFw r ∧ r.ext = o.bool a.ext b.ext ∧ r.size = max a.size b.size ∧
      (∀ i, lg r i = o.bool (lg a i) (lg b i)) := by
  obtain ⟨r, h, h1, h2, h3, h4, _⟩ := opInto_ok o a a b ha hb
  refine ⟨r, ?_, h1, h2, h3, h4⟩
  rw [← h]
  unfold opInPlace opInto
  have hA := ha.size_le
  have hB := hb.size_le
  rw [if_neg (by omega), if_neg (by omega)]
  simp only []
  rw [setCapa_take _ _ _ _ (toWord_mono (by omega)) (by rw [toWord_min]; simp only []; omega)]
  rw [setCapa_ext]
  by_cases hw : toWord a.size < toWord b.size
  · rw [if_pos hw, if_pos hw]
    have : o.bool a.ext b.ext = a.ext := by
      rcases hsafe with h | h
      · exact h
      · omega
    rw [this]
  · rw [if_neg hw, if_neg hw]
    by_cases hw2 : toWord b.size < toWord a.size
    · rw [if_pos hw2, if_pos hw2]
      rw [setCapa_take _ _ _ _ (Nat.le_refl _) (by rw [toWord_max]; simp only []; omega)]
    · rw [if_neg hw2, if_neg hw2]

end Ferret.BitVector
