import Verif.Model.Stream

namespace Ferret

/-! ### writeAt and slice -/

theorem writeAt_getElem? (l s : List Byte) (p : Nat) (hp : p ≤ l.length) (i : Nat) :
    (writeAt l p s)[i]? = if i < p then l[i]? else if i < p + s.length then s[i - p]? else l[i]? := by
  unfold writeAt
  rw [List.append_assoc, List.getElem?_append, List.getElem?_append]
  simp only [List.length_take, Nat.min_eq_left hp, List.getElem?_drop]
  by_cases h1 : i < p
  · rw [if_pos h1, if_pos h1, List.getElem?_take_of_lt h1]
  · rw [if_neg h1, if_neg h1]
    by_cases h2 : i < p + s.length
    · rw [if_pos h2, if_pos (by omega)]
    · rw [if_neg h2, if_neg (by omega)]
      congr 1
      omega

theorem writeAt_length (l s : List Byte) (p : Nat) (hp : p ≤ l.length) : (writeAt l p s).length = max l.length (p + s.length) := by
  unfold writeAt; simp only [List.length_append, List.length_take, List.length_drop]; omega

theorem writeAt_nil (l : List Byte) (p : Nat) : writeAt l p [] = l := by
  simp [writeAt]

theorem writeAt_end (l s : List Byte) : writeAt l l.length s = l ++ s := by
  unfold writeAt; simp

theorem writeAt_writeAt (l a b : List Byte) (p : Nat) (hp : p ≤ l.length) : writeAt (writeAt l p a) (p + a.length) b = writeAt l p (a ++ b) := by
  apply List.ext_getElem?
  intro i
  rw [writeAt_getElem? _ _ _ (by rw [writeAt_length _ _ _ hp]; omega), writeAt_getElem? _ _ _ hp, writeAt_getElem? _ _ _ hp]
  simp only [List.length_append]
  by_cases h1 : i < p
  · simp [h1, show i < p + a.length by omega]
  · by_cases h2 : i < p + a.length
    · simp only [h1, h2, if_true, if_false, show i < p + (a.length + b.length) by omega]
      rw [List.getElem?_append_left (by omega)]
    · by_cases h3 : i < p + (a.length + b.length)
      · simp only [h1, h2, h3, if_true, if_false, show i < p + a.length + b.length by omega]
        rw [List.getElem?_append_right (by omega)]; congr 1; omega
      · simp only [h1, h2, h3, if_false, show ¬ i < p + a.length + b.length by omega]

theorem take_writeAt (l s : List Byte) (p n : Nat) (hp : p ≤ n) (hn : n ≤ l.length) :
    (writeAt l p s).take (max n (p + s.length)) = writeAt (l.take n) p s := by
  apply List.ext_getElem?
  intro i
  rw [List.getElem?_take, writeAt_getElem? _ _ _ (by omega), writeAt_getElem? _ _ _ (by rw [List.length_take]; omega), List.getElem?_take]
  by_cases h1 : i < p
  · simp only [h1, if_true, show i < n by omega, show i < max n (p + s.length) by omega]
  · by_cases h2 : i < p + s.length
    · simp only [h1, h2, if_true, if_false, show i < max n (p + s.length) by omega]
    · simp only [h1, h2, if_false]
      by_cases h3 : i < n
      · simp only [h3, show i < max n (p + s.length) by omega]
      · simp only [h3, show ¬ i < max n (p + s.length) by omega]

theorem slice_getElem? (l : List Byte) (p n i : Nat) : (slice l p n)[i]? = if i < n then l[p + i]? else none := by
  unfold slice; rw [List.getElem?_take, List.getElem?_drop]

theorem slice_length (l : List Byte) (p n : Nat) : (slice l p n).length = min n (l.length - p) := by
  simp [slice, List.length_take, List.length_drop]

theorem slice_zero (l : List Byte) (p : Nat) : slice l p 0 = [] := by simp [slice]

theorem slice_append_slice (l : List Byte) (p a b : Nat) : slice l p a ++ slice l (p + a) b = slice l p (a + b) := by
  unfold slice
  rw [← List.drop_drop, List.take_add]

namespace Store

/-! ### RAM files -/

/-- The bytes of all buffers. -/
def RamFile.flat (rf : RamFile) : List Byte := rf.bufs.flatten

/-- The content of a RAM file. -/
def RamFile.content (rf : RamFile) : List Byte := rf.flat.take rf.len

/-- Buffers are of the right size and cover the length. -/
structure RamFile.WF (rf : RamFile) : Prop where
  size : ∀ b ∈ rf.bufs, b.length = bufSize
  len : rf.len ≤ bufSize * rf.bufs.length

theorem flat_length {bufs : List (List Byte)} (h : ∀ b ∈ bufs, b.length = bufSize) : bufs.flatten.length = bufSize * bufs.length := by
  induction bufs with
  | nil => rfl
  | cons b bs ih =>
    rw [List.flatten_cons, List.length_append, h b (by simp), ih (fun c hc => h c (by simp [hc])), List.length_cons, Nat.mul_succ]
    omega

theorem flat_getElem? {bufs : List (List Byte)} (h : ∀ b ∈ bufs, b.length = bufSize) (i : Nat) :
    bufs.flatten[i]? = (bufs[i / bufSize]?).bind (fun b => b[i % bufSize]?) := by
  induction bufs generalizing i with
  | nil => simp
  | cons b bs ih =>
    have hb := h b (by simp)
    rw [List.flatten_cons, List.getElem?_append, hb]
    unfold bufSize at *
    by_cases hi : i < 1024
    · rw [if_pos hi, show i / 1024 = 0 by omega, show i % 1024 = i by omega]
      rfl
    · rw [if_neg hi, ih (fun c hc => h c (by simp [hc])), show i / 1024 = (i - 1024) / 1024 + 1 by omega, show i % 1024 = (i - 1024) % 1024 by omega]
      rfl

theorem content_length {rf : RamFile} (h : rf.WF) : rf.content.length = rf.len := by
  have := flat_length h.size
  have := h.len
  simp only [RamFile.content, RamFile.flat, List.length_take]; omega

theorem rfCopy_spec {rf : RamFile} (hs : ∀ b ∈ rf.bufs, b.length = bufSize) (k off : Nat) (src : List Byte) (hk : k < rf.bufs.length) (hoff : off + src.length ≤ bufSize) :
    ∃ bs : List (List Byte), rfCopy rf k off src = .ok { rf with bufs := bs } ∧ bs.length = rf.bufs.length ∧ (∀ b ∈ bs, b.length = bufSize) ∧ bs.flatten = writeAt rf.bufs.flatten (bufSize * k + off) src := by
  have hb : rf.bufs[k]? = some rf.bufs[k] := List.getElem?_eq_getElem hk
  have hl : rf.bufs[k].length = bufSize := hs _ (List.getElem_mem hk)
  refine ⟨rf.bufs.set k (writeAt rf.bufs[k] off src), ?_, by simp, ?_, ?_⟩
  · unfold rfCopy; rw [hb]; simp only []; rw [if_pos (by omega)]
  · intro b hbm
    rcases List.mem_or_eq_of_mem_set hbm with h | h
    · exact hs b h
    · rw [h, writeAt_length _ _ _ (by omega)]; omega
  · have hs' : ∀ b ∈ rf.bufs.set k (writeAt rf.bufs[k] off src), b.length = bufSize := by
      intro b hbm
      rcases List.mem_or_eq_of_mem_set hbm with h | h
      · exact hs b h
      · rw [h, writeAt_length _ _ _ (by omega)]; omega
    apply List.ext_getElem?
    intro i
    have hfl := flat_length hs
    have hklen : bufSize * k + bufSize ≤ bufSize * rf.bufs.length := by
      rw [← Nat.mul_succ]; exact Nat.mul_le_mul_left _ hk
    rw [writeAt_getElem? _ _ _ (by omega), flat_getElem? hs', flat_getElem? hs]
    by_cases hik : i / bufSize = k
    · rw [hik, List.getElem?_set_self hk, hb]
      simp only [Option.bind_some]
      rw [writeAt_getElem? _ _ _ (by omega)]
      have hi : i = bufSize * k + i % bufSize := by rw [← hik]; exact (Nat.div_add_mod i bufSize).symm
      have hlt : i % bufSize < bufSize := Nat.mod_lt _ (by decide)
      generalize i % bufSize = m at *
      by_cases h1 : m < off
      · simp only [h1, if_true, show i < bufSize * k + off by omega]
      · by_cases h2 : m < off + src.length
        · simp only [h1, h2, if_true, if_false, show ¬ i < bufSize * k + off by omega, show i < bufSize * k + off + src.length by omega]
          congr 1; omega
        · simp only [h1, h2, if_false, show ¬ i < bufSize * k + off by omega, show ¬ i < bufSize * k + off + src.length by omega]
    · rw [List.getElem?_set_ne (fun h => hik h.symm)]
      have hcase : i < bufSize * k ∨ bufSize * k + bufSize ≤ i := by
        rcases Nat.lt_or_gt_of_ne hik with h | h
        · left
          have := Nat.div_add_mod i bufSize
          have h3 : i % bufSize < bufSize := Nat.mod_lt _ (by decide)
          have h4 : bufSize * (i / bufSize) + bufSize ≤ bufSize * k := by rw [← Nat.mul_succ]; exact Nat.mul_le_mul_left _ h
          omega
        · right
          have := Nat.div_add_mod i bufSize
          have h4 : bufSize * k + bufSize ≤ bufSize * (i / bufSize) := by rw [← Nat.mul_succ]; exact Nat.mul_le_mul_left _ h
          omega
      rcases hcase with h | h
      · rw [if_pos (by omega)]
      · rw [if_neg (by omega), if_neg (by omega)]

theorem rfExtend_spec (junk : Byte) {rf : RamFile} (hs : ∀ b ∈ rf.bufs, b.length = bufSize) (k : Nat) :
    (rfExtend junk rf k).len = rf.len ∧ (∀ b ∈ (rfExtend junk rf k).bufs, b.length = bufSize) ∧ k < (rfExtend junk rf k).bufs.length ∧ rf.bufs.length ≤ (rfExtend junk rf k).bufs.length ∧
      ∃ t : List Byte, (rfExtend junk rf k).bufs.flatten = rf.bufs.flatten ++ t := by
  unfold rfExtend
  refine ⟨rfl, ?_, ?_, ?_, ?_⟩
  · intro b hb
    rcases List.mem_append.1 hb with h | h
    · exact hs b h
    · rw [List.eq_of_mem_replicate h]; simp
  · simp only [List.length_append, List.length_replicate]; omega
  · simp only [List.length_append]; omega
  · exact ⟨_, List.flatten_append⟩

theorem writeAt_append_take (l t s : List Byte) (p : Nat) (hp : p ≤ l.length) (hs : p + s.length ≤ l.length) : writeAt (l ++ t) p s = writeAt l p s ++ t := by
  unfold writeAt
  rw [List.take_append_of_le_length hp, List.drop_append_of_le_length hs]
  simp

theorem ramoFlush_spec (junk : Byte) {rf : RamFile} (hwf : rf.WF) (p : Nat) (src : List Byte) (hp : p ≤ rf.len) (hsrc : src.length ≤ bufSize) :
    ∃ rf', ramoFlush junk rf p src = .ok (rf', p + src.length) ∧ rf'.WF ∧ rf'.content = writeAt rf.content p src ∧ rf.bufs.length ≤ rf'.bufs.length ∧ p / bufSize < rf'.bufs.length := by
  unfold ramoFlush
  dsimp only
  have hmod : p % bufSize < bufSize := Nat.mod_lt _ (by decide)
  have hdm := Nat.div_add_mod p bufSize
  obtain ⟨hel, hes, hek, heb, t, het⟩ := rfExtend_spec junk hwf.size (p / bufSize)
  generalize hto : (if bufSize - p % bufSize < src.length then bufSize - p % bufSize else src.length) = n
  have hn : n ≤ src.length ∧ p % bufSize + n ≤ bufSize ∧ (n < src.length → n = bufSize - p % bufSize) := by
    split at hto <;> omega
  have htk : (src.take n).length = n := by rw [List.length_take]; omega
  obtain ⟨bs, hc, hbl, hbs, hfl⟩ := rfCopy_spec hes (p / bufSize) (p % bufSize) (src.take n) hek (by omega)
  have hflat := flat_length hwf.size
  have hplen : p ≤ rf.bufs.flatten.length := by have := hwf.len; omega
  have hfl2 : bs.flatten = writeAt (rf.bufs.flatten ++ t) p (src.take n) := by rw [hfl, het, hdm]
  rw [hc, Res.ok_bind]
  have hcapp : rf.content = (rf.bufs.flatten ++ t).take rf.len := by
    unfold RamFile.content RamFile.flat
    rw [List.take_append_of_le_length (by have := hwf.len; omega)]
  have hl1 : bs.flatten.length = bufSize * bs.length := flat_length hbs
  by_cases hlt : n < src.length
  · rw [if_pos hlt]
    have hneq := hn.2.2 hlt
    obtain ⟨hel2, hes2, hek2, heb2, t2, het2⟩ := rfExtend_spec junk (rf := ⟨bs, (rfExtend junk rf (p / bufSize)).len⟩) hbs (p / bufSize + 1)
    simp only at heb2
    have hdl : (src.drop n).length ≤ bufSize := by rw [List.length_drop]; omega
    obtain ⟨bs2, hc2, hbl2, hbs2, hfl3⟩ := rfCopy_spec hes2 (p / bufSize + 1) 0 (src.drop n) hek2 (by omega)
    rw [hc2, Res.ok_bind]
    have hpos : bufSize * (p / bufSize + 1) + 0 = p + (src.take n).length := by rw [htk, Nat.mul_succ]; omega
    have hfl4 : bs2.flatten = writeAt (rf.bufs.flatten ++ (t ++ t2)) p src := by
      have hple : p + (src.take n).length ≤ (rf.bufs.flatten ++ t).length := by
        have h1 := hfl2 ▸ hl1
        rw [← het, flat_length hes, ← hbl, htk]
        have h3 : bufSize * (p / bufSize) + bufSize ≤ bufSize * bs.length := by
          rw [← Nat.mul_succ]; exact Nat.mul_le_mul_left _ (by omega)
        omega
      rw [hfl3, het2, hpos]
      simp only
      rw [hfl2]
      rw [← writeAt_append_take _ _ _ _ (by omega) hple, writeAt_writeAt _ _ _ _ (by rw [List.length_append, List.length_append]; omega), List.take_append_drop, List.append_assoc]
    have hl2 := flat_length hbs2
    have hwl : (writeAt (rf.bufs.flatten ++ (t ++ t2)) p src).length = _ := writeAt_length _ _ _ (by rw [List.length_append]; omega)
    refine ⟨_, rfl, ⟨hbs2, ?_⟩, ?_, ?_, ?_⟩
    · simp only
      have := hwf.len
      rw [hel2]; simp only; rw [hel]
      rw [← hl2, hfl4, hwl, List.length_append]
      split <;> omega
    · simp only [RamFile.content, RamFile.flat]
      rw [hel2]; simp only; rw [hel, hfl4]
      have hmx : (if p + src.length > rf.len then p + src.length else rf.len) = max rf.len (p + src.length) := by split <;> omega
      have hlenle := hwf.len
      rw [hmx, take_writeAt _ _ _ _ hp (by rw [List.length_append]; omega), List.take_append_of_le_length (by omega)]
    · simp only; omega
    · simp only; omega
  · rw [if_neg hlt, Res.ok_bind]
    have hall : src.take n = src := List.take_of_length_le (by omega)
    rw [hall] at hfl2
    have hlenle := hwf.len
    have hwl : (writeAt (rf.bufs.flatten ++ t) p src).length = _ := writeAt_length _ _ _ (by rw [List.length_append]; omega)
    refine ⟨_, rfl, ⟨hbs, ?_⟩, ?_, ?_, ?_⟩
    · simp only
      rw [hel, ← hl1, hfl2, hwl, List.length_append]
      split <;> omega
    · simp only [RamFile.content, RamFile.flat]
      rw [hel, hfl2]
      have hmx : (if p + src.length > rf.len then p + src.length else rf.len) = max rf.len (p + src.length) := by split <;> omega
      rw [hmx, take_writeAt _ _ _ _ hp (by rw [List.length_append]; omega), List.take_append_of_le_length (by omega)]
    · simp only; omega
    · simp only; omega

theorem ramiLoop_spec {rf : RamFile} (hwf : rf.WF) : ∀ (fuel start n : Nat), n ≤ fuel → start + n ≤ bufSize * rf.bufs.length → ramiLoop rf fuel start n = .ok (slice rf.flat start n) := by
  intro fuel
  induction fuel with
  | zero =>
    intro start n h _
    obtain rfl : n = 0 := by omega
    simp [ramiLoop, slice_zero]
  | succ f ih =>
    intro start n h hlen
    cases n with
    | zero => simp [ramiLoop, slice_zero]
    | succ r =>
      unfold ramiLoop
      have hmod : start % bufSize < bufSize := Nat.mod_lt _ (by decide)
      have hdm := Nat.div_add_mod start bufSize
      generalize hto : (if bufSize - start % bufSize ≥ r + 1 then r + 1 else bufSize - start % bufSize) = n
      have hn : n ≤ r + 1 ∧ start % bufSize + n ≤ bufSize ∧ 0 < n := by split at hto <;> omega
      have hk : start / bufSize < rf.bufs.length := Nat.div_lt_of_lt_mul (by omega)
      have hb : rf.bufs[start / bufSize]? = some rf.bufs[start / bufSize] := List.getElem?_eq_getElem hk
      have hl : rf.bufs[start / bufSize].length = bufSize := hwf.size _ (List.getElem_mem hk)
      rw [hb]
      simp only []
      rw [if_pos (by omega), ih _ _ (by omega) (by omega), Res.ok_bind]
      have hfirst : slice rf.bufs[start / bufSize] (start % bufSize) n = slice rf.flat start n := by
        apply List.ext_getElem?
        intro i
        rw [slice_getElem?, slice_getElem?]
        by_cases hi : i < n
        · rw [if_pos hi, if_pos hi, RamFile.flat, flat_getElem? hwf.size]
          have h1 : (start + i) / bufSize = start / bufSize := by unfold bufSize at *; omega
          have h2 : (start + i) % bufSize = start % bufSize + i := by unfold bufSize at *; omega
          rw [h1, h2, hb]; rfl
        · rw [if_neg hi, if_neg hi]
      rw [hfirst, slice_append_slice, show n + (r + 1 - n) = r + 1 by omega]

theorem slice_take (l : List Byte) (p n m : Nat) (h : p + n ≤ m) : slice (l.take m) p n = slice l p n := by
  apply List.ext_getElem?
  intro i
  rw [slice_getElem?, slice_getElem?]
  split
  · rw [List.getElem?_take_of_lt (by omega)]
  · rfl

end Store
end Ferret
