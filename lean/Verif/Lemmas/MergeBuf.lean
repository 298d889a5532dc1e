import Verif.Model.Merge

/-! The buffer of terms: what the writer points to is not overwritten while it is needed, if the terms are not too long. -/

namespace Ferret.Merge
open Ferret Ferret.Expand Ferret.Dict Ferret.Post

/-- The term is in the buffer. -/
def Holds (ii : Nat) (mem : Nat → Byte) (t : Term) (p : Nat) : Prop :=
  p + t.length < (ii + 2) * 255 ∧ (∀ (i : Nat) (b : Byte), t[i]? = some b → mem (p + i) = b) ∧ mem (p + t.length) = 0

theorem cstr_holds {mem : Nat → Byte} : ∀ (t : Term) (n p : Nat), t.length < n → (∀ b ∈ t, b ≠ 0) → (∀ (i : Nat) (b : Byte), t[i]? = some b → mem (p + i) = b) →
    mem (p + t.length) = 0 → cstr mem n p = .ok t := by
  intro t
  induction t with
  | nil =>
    intro n p hn _ _ h0
    obtain ⟨n, rfl⟩ : ∃ k, n = k + 1 := ⟨n - 1, by simp at hn; omega⟩
    rw [cstr, if_pos (show mem p = 0 from h0)]
  | cons b t ih =>
    intro n p hn hz h h0
    obtain ⟨n, rfl⟩ : ∃ k, n = k + 1 := ⟨n - 1, by simp at hn; omega⟩
    have hb : mem p = b := h 0 b rfl
    rw [cstr, hb, if_neg (hz b (List.mem_cons_self ..)), ih n (p + 1) (by simp at hn; omega) (fun x hx => hz x (List.mem_cons_of_mem _ hx))
      (fun i x hx => by rw [Nat.add_assoc, Nat.add_comm 1 i]; exact h (i + 1) x hx)
      (by rw [Nat.add_assoc, Nat.add_comm 1]; exact h0), Res.ok_bind]

theorem Holds.read {ii : Nat} {mem : Nat → Byte} {t : Term} {p : Nat} (h : Holds ii mem t p) (hz : ∀ b ∈ t, b ≠ 0) : pointee ii mem (some p) = .ok t := by
  obtain ⟨h1, h2, h3⟩ := h
  exact cstr_holds t _ p (by omega) hz h2 h3

theorem holds_blit {ii : Nat} (mem : Nat → Byte) (t : Term) (p : Nat) (h : p + (t.length + 1) ≤ (ii + 2) * 255) : Holds ii (blit mem p (t ++ [0])) t p := by
  refine ⟨by omega, fun i b hb => ?_, ?_⟩
  · have hlt : i < t.length := (List.getElem?_eq_some_iff.1 hb).1
    unfold blit
    rw [if_pos (by omega), Nat.add_sub_cancel_left, List.getElem?_append_left hlt, hb]
    rfl
  · unfold blit
    rw [if_pos (by omega), Nat.add_sub_cancel_left, List.getElem?_append_right (Nat.le_refl _), Nat.sub_self]
    rfl

theorem Holds.blit {ii : Nat} {mem : Nat → Byte} {t : Term} {p : Nat} (h : Holds ii mem t p) {q : Nat} {b : List Byte} (hd : p + (t.length + 1) ≤ q ∨ q + b.length ≤ p) :
    Holds ii (blit mem q b) t p := by
  obtain ⟨h1, h2, h3⟩ := h
  have hout : ∀ i, i ≤ t.length → Merge.blit mem q b (p + i) = mem (p + i) := by
    intro i hi
    unfold Merge.blit
    split
    · rw [List.getElem?_eq_none (by omega)]
      rfl
    · rfl
  refine ⟨h1, fun i x hx => ?_, ?_⟩
  · have hlt : i < t.length := (List.getElem?_eq_some_iff.1 hx).1
    rw [hout i (by omega)]
    exact h2 i x hx
  · rw [hout _ (Nat.le_refl _)]
    exact h3

/-- A term of `la` bytes at `a` is not touched by the next terms of `B` bytes in all. -/
def Lap (size a la ptr B : Nat) : Prop := (a + la ≤ ptr ∧ ptr + B ≤ size + a) ∨ ptr + B < a

theorem Lap.disjoint {size a la ptr B l : Nat} (h : Lap size a la ptr B) (hl : l ≤ B) : a + la ≤ ptr ∨ ptr + l ≤ a := by
  rcases h with h | h
  · exact .inl h.1
  · exact .inr (by omega)

theorem Lap.next {size a la ptr B l : Nat} (h : Lap size a la ptr (l + B)) : Lap size a la (if ptr + l > size then 0 else ptr + l) B := by
  rcases h with h | h
  · split
    · exact .inr (by omega)
    · exact .inl (by omega)
  · split
    · exact .inr (by omega)
    · exact .inr (by omega)

theorem lap_new {size ptr l B : Nat} (h : l + B ≤ size) : Lap size ptr l (if ptr + l > size then 0 else ptr + l) B := by
  split
  · exact .inr (by omega)
  · exact .inl (by omega)

theorem Lap.less {size a la ptr B B' : Nat} (h : Lap size a la ptr B) (hB : B' ≤ B) : Lap size a la ptr B' := by
  rcases h with h | h
  · exact .inl (by omega)
  · exact .inr (by omega)

/-- What is needed of a pointer: it points to the term, and the term is not touched by the next `B` bytes. -/
def Points (ii : Nat) (mem : Nat → Byte) (ptr B : Nat) (t : Term) : Option Nat → Prop
  | none => t = []
  | some p => Holds ii mem t p ∧ (∀ b ∈ t, b ≠ 0) ∧ Lap ((ii + 1) * 255) p (t.length + 1) ptr B

theorem Points.read {ii : Nat} {mem : Nat → Byte} {ptr B : Nat} {t : Term} {o : Option Nat} (h : Points ii mem ptr B t o) : pointee ii mem o = .ok t := by
  cases o with
  | none => rw [show t = [] from h]; rfl
  | some p => exact h.1.read h.2.1

/-- Placing the next term. -/
theorem Points.next {ii : Nat} {mem : Nat → Byte} {ptr B : Nat} {t u : Term} {o : Option Nat} (h : Points ii mem ptr (u.length + 1 + B) t o) :
    Points ii (Merge.blit mem ptr (u ++ [0])) (if ptr + (u.length + 1) > (ii + 1) * 255 then 0 else ptr + (u.length + 1)) B t o := by
  cases o with
  | none => exact h
  | some p =>
    obtain ⟨h1, h2, h3⟩ := h
    refine ⟨h1.blit ?_, h2, h3.next⟩
    rw [List.length_append, List.length_singleton]
    exact h3.disjoint (by omega)

theorem Points.less {ii : Nat} {mem : Nat → Byte} {ptr B B' : Nat} {t : Term} {o : Option Nat} (h : Points ii mem ptr B t o) (hB : B' ≤ B) : Points ii mem ptr B' t o := by
  cases o with
  | none => exact h
  | some p => exact ⟨h.1, h.2.1, h.2.2.less hB⟩

/-- Until when the last index term is needed: how many more terms. -/
def dueIn (ii c : Nat) : Nat := if c % ii = 0 then 1 else ii - c % ii + 1

theorem dueIn_next {ii c : Nat} (hii : 0 < ii) (h : c % ii ≠ 0) : dueIn ii c = dueIn ii (c + 1) + 1 := by
  have hlt := Nat.mod_lt c hii
  unfold dueIn
  rw [if_neg h]
  by_cases h1 : c % ii + 1 = ii
  · have : (c + 1) % ii = 0 := by
      rw [Nat.add_mod]
      by_cases h2 : ii = 1
      · subst h2; exact Nat.mod_one _
      · rw [Nat.mod_eq_of_lt (show 1 < ii by omega), h1, Nat.mod_self]
    rw [if_pos this]
    omega
  · have : (c + 1) % ii = c % ii + 1 := by
      rw [Nat.add_mod, Nat.mod_eq_of_lt (show 1 < ii by omega), Nat.mod_eq_of_lt (by omega)]
    rw [if_neg (by omega)]
    omega

theorem dueIn_after {ii c : Nat} (hii : 0 < ii) (h : c % ii = 0) : dueIn ii (c + 1) = ii := by
  unfold dueIn
  by_cases h2 : ii = 1
  · subst h2; rw [if_pos (Nat.mod_one _)]
  · have : (c + 1) % ii = 1 := by
      rw [Nat.add_mod, h, Nat.zero_add, Nat.mod_mod, Nat.mod_eq_of_lt (by omega)]
    rw [if_neg (by omega), this]
    omega

/-- The bytes of the next `k` terms. -/
def need (L : List Nat) (k : Nat) : Nat := (L.take k).sum

theorem need_mono (L : List Nat) {j k : Nat} (h : j ≤ k) : need L j ≤ need L k := by
  unfold need
  induction L generalizing j k with
  | nil => simp
  | cons x L ih =>
    cases j with
    | zero => simp
    | succ j =>
      obtain ⟨k, rfl⟩ : ∃ m, k = m + 1 := ⟨k - 1, by omega⟩
      have := ih (j := j) (k := k) (by omega)
      rw [List.take_succ_cons, List.take_succ_cons, List.sum_cons, List.sum_cons]
      omega

theorem need_cons (x : Nat) (L : List Nat) (k : Nat) : need (x :: L) (k + 1) = x + need L k := by
  unfold need
  rw [List.take_succ_cons, List.sum_cons]

/-- No `ii + 2` terms in a row are longer than the buffer. -/
def Windows (ii : Nat) (L : List Nat) : Prop := ∀ k, need (L.drop k) (ii + 2) ≤ (ii + 1) * 255

theorem Windows.tail {ii x : Nat} {L : List Nat} (h : Windows ii (x :: L)) : Windows ii L := fun k => h (k + 1)

/-- The writer with the buffer does what the writer does. -/
structure BInv (ii : Nat) (s : BufW) (w : TIW) (L : List Nat) : Prop where
  tiw : s.tiw = w
  interval : w.indexInterval = ii
  ptr : s.ptr ≤ (ii + 1) * 255
  tis : Points ii s.mem s.ptr (need L (ii + 1)) w.tis.lastTerm s.tisAt
  tix : Points ii s.mem s.ptr (need L (dueIn ii w.tis.counter)) w.tix.lastTerm s.tixAt

theorem bufAdd_spec {ii : Nat} (hii : 0 < ii) {s : BufW} {w : TIW} {t : Term} {L : List Nat} (h : BInv ii s w ((t.length + 1) :: L)) (hw : Windows ii ((t.length + 1) :: L))
    (ht : t.length ≤ 254) (hz : ∀ b ∈ t, b ≠ 0) (ti : TI) :
    ∃ s' w', bufAdd ii s t ti = .ok s' ∧ tiwAdd w t ti = .ok w' ∧ BInv ii s' w' L := by
  obtain ⟨h1, h2, h3, h4, h5⟩ := h
  subst h1
  have hfit : s.ptr + (t.length + 1) ≤ (ii + 2) * 255 := by omega
  have h4' : Points ii s.mem s.ptr (t.length + 1 + need L ii) s.tiw.tis.lastTerm s.tisAt := by
    rw [← need_cons]; exact h4
  have hy := (h4'.next (u := t)).read
  have hdue : 1 ≤ dueIn ii s.tiw.tis.counter := by unfold dueIn; split <;> omega
  obtain ⟨k, hk⟩ : ∃ k, dueIn ii s.tiw.tis.counter = k + 1 := ⟨_, (Nat.sub_add_cancel hdue).symm⟩
  have h5' : Points ii s.mem s.ptr (t.length + 1 + need L k) s.tiw.tix.lastTerm s.tixAt := by
    rw [hk, need_cons] at h5; exact h5
  have hx := (h5'.next (u := t)).read
  have hwin : t.length + 1 + need L (ii + 1) ≤ (ii + 1) * 255 := by
    have := hw 0
    rwa [List.drop_zero, need_cons] at this
  have hnew : Points ii (blit s.mem s.ptr (t ++ [0])) (if s.ptr + (t.length + 1) > (ii + 1) * 255 then 0 else s.ptr + (t.length + 1)) (need L (ii + 1)) t (some s.ptr) :=
    ⟨holds_blit _ _ _ hfit, hz, lap_new hwin⟩
  have hptr : (if s.ptr + (t.length + 1) > (ii + 1) * 255 then 0 else s.ptr + (t.length + 1)) ≤ (ii + 1) * 255 := by
    split
    · exact Nat.zero_le _
    · exact Nat.not_lt.1 ‹_›
  have hii' : ¬s.tiw.indexInterval = 0 := by omega
  have hsame : ({ s.tiw with tix := { s.tiw.tix with lastTerm := s.tiw.tix.lastTerm }, tis := { s.tiw.tis with lastTerm := s.tiw.tis.lastTerm } } : TIW) = s.tiw := rfl
  have hrd : (if s.tiw.tis.counter % s.tiw.indexInterval = 0 then pointee ii (blit s.mem s.ptr (t ++ [0])) s.tixAt else .ok s.tiw.tix.lastTerm) = .ok s.tiw.tix.lastTerm := by
    split
    · exact hx
    · rfl
  unfold bufAdd
  rw [if_neg (by omega)]
  dsimp only
  rw [if_neg hii', hrd, Res.ok_bind, hy, Res.ok_bind, hsame]
  unfold tiwAdd
  rw [if_neg hii', Res.ok_bind, h2]
  refine ⟨_, _, rfl, rfl, ?_⟩
  by_cases hc : s.tiw.tis.counter % ii = 0
  · refine ⟨rfl, ?_, hptr, ?_, ?_⟩
    · simp only [if_pos hc]
    · simp only [if_pos hc]
      exact hnew
    · simp only [if_pos hc]
      show Points ii _ _ (need L (dueIn ii (s.tiw.tis.counter + 1))) s.tiw.tis.lastTerm s.tisAt
      rw [dueIn_after hii hc]
      exact h4'.next
  · refine ⟨rfl, ?_, hptr, ?_, ?_⟩
    · simp only [if_neg hc]; exact h2
    · simp only [if_neg hc]
      exact hnew
    · simp only [if_neg hc]
      show Points ii _ _ (need L (dueIn ii (s.tiw.tis.counter + 1))) s.tiw.tix.lastTerm s.tixAt
      have : k = dueIn ii (s.tiw.tis.counter + 1) := by
        have := dueIn_next hii hc
        omega
      rw [← this]
      exact h5'.next

theorem bufTerms_spec {ii : Nat} (hii : 0 < ii) : ∀ (es : List (Term × TI)) (s : BufW) (w : TIW) (L : List Nat), BInv ii s w (es.map (fun e => e.1.length + 1) ++ L) →
    Windows ii (es.map (fun e => e.1.length + 1) ++ L) → (∀ e ∈ es, e.1.length ≤ 254 ∧ ∀ b ∈ e.1, b ≠ 0) →
    ∃ s' w', bufTerms ii s es = .ok s' ∧ addTerms w es = .ok w' ∧ BInv ii s' w' L ∧ Windows ii L := by
  intro es
  induction es with
  | nil => intro s w L h hw _; exact ⟨s, w, rfl, rfl, h, hw⟩
  | cons e es ih =>
    intro s w L h hw he
    obtain ⟨he1, he2⟩ := he e (List.mem_cons_self ..)
    obtain ⟨s1, w1, a1, a2, a3⟩ := bufAdd_spec hii h hw he1 he2 e.2
    obtain ⟨s2, w2, b1, b2, b3, b4⟩ := ih s1 w1 L a3 hw.tail fun x hx => he x (List.mem_cons_of_mem _ hx)
    refine ⟨s2, w2, ?_, ?_, b3, b4⟩
    · rw [show e = (e.1, e.2) from rfl, bufTerms, a1, Res.ok_bind, b1]
    · rw [show e = (e.1, e.2) from rfl, addTerms, a2, Res.ok_bind, b2]

theorem bufFields_spec {ii : Nat} (hii : 0 < ii) : ∀ (fs : List (Nat × List (Term × TI))) (s : BufW) (w : TIW), BInv ii s w (fs.flatMap fun f => f.2.map fun e => e.1.length + 1) →
    Windows ii (fs.flatMap fun f => f.2.map fun e => e.1.length + 1) → (∀ f ∈ fs, ∀ e ∈ f.2, e.1.length ≤ 254 ∧ ∀ b ∈ e.1, b ≠ 0) →
    ∃ s' w', bufFields ii s fs = .ok s' ∧ addFields w fs = .ok w' ∧ s'.tiw = w' := by
  intro fs
  induction fs with
  | nil => intro s w h _ _; exact ⟨s, w, rfl, rfl, h.tiw⟩
  | cons f fs ih =>
    intro s w h hw he
    rw [List.flatMap_cons] at h hw
    have h0 : BInv ii { s with tiw := tiwStartField s.tiw f.1, tixAt := none, tisAt := none } (tiwStartField w f.1) (f.2.map (fun e => e.1.length + 1) ++ fs.flatMap fun f => f.2.map fun e => e.1.length + 1) := by
      refine ⟨?_, h.interval, h.ptr, rfl, rfl⟩
      show tiwStartField s.tiw f.1 = _
      rw [h.tiw]
    obtain ⟨s1, w1, a1, a2, a3, a4⟩ := bufTerms_spec hii f.2 _ _ _ h0 hw (he f (List.mem_cons_self ..))
    obtain ⟨s2, w2, b1, b2, b3⟩ := ih s1 w1 a3 a4 fun x hx => he x (List.mem_cons_of_mem _ hx)
    refine ⟨s2, w2, ?_, ?_, b3⟩
    · rw [show f = (f.1, f.2) from rfl, bufFields, a1, Res.ok_bind, b1]
    · rw [show f = (f.1, f.2) from rfl, addFields, a2, Res.ok_bind, b2]

end Ferret.Merge
