import Verif.Model.TermDict
import Verif.Lemmas.Expand
import Verif.Lemmas.Codec

/-! Lemmas about the term dictionary: what is written, and reading it back. -/

namespace Ferret.Dict
open Ferret Ferret.Expand

/-! ### Entries -/

/-- What is read of an entry agrees with it; the skip offset counts only for frequent terms. -/
structure Agrees (si : Nat) (a b : TI) : Prop where
  docFreq : a.docFreq = b.docFreq
  frq : a.frqPtr = b.frqPtr
  prx : a.prxPtr = b.prxPtr
  skip : b.docFreq ≥ si → a.skip = b.skip

theorem Agrees.refl (si : Nat) (a : TI) : Agrees si a a := ⟨rfl, rfl, rfl, fun _ => rfl⟩

/-- The numbers of an entry fit, and its pointers are not before those of the last. -/
structure Fits (last : TI) (e : Term × TI) : Prop where
  len : e.1.length < 255
  docFreq : e.2.docFreq < 2 ^ 32
  frqLt : e.2.frqPtr < 2 ^ 64
  prxLt : e.2.prxPtr < 2 ^ 64
  skip : e.2.skip < 2 ^ 64
  frq : last.frqPtr ≤ e.2.frqPtr
  prx : last.prxPtr ≤ e.2.prxPtr

theorem stringDiff_le : ∀ (s t : Term), stringDiff s t ≤ s.length ∧ stringDiff s t ≤ t.length
  | [], t => by simp [stringDiff]
  | x :: s, [] => by simp [stringDiff]
  | x :: s, y :: t => by
    have := stringDiff_le s t
    unfold stringDiff
    split <;> simp only [List.length_cons] <;> omega

theorem stringDiff_take : ∀ (s t : Term), s.take (stringDiff s t) = t.take (stringDiff s t)
  | [], t => by simp [stringDiff]
  | x :: s, [] => by simp [stringDiff]
  | x :: s, y :: t => by
    unfold stringDiff
    split
    · rename_i h; subst h; simp [stringDiff_take s t]
    · rfl

theorem voff_sub (a b : Nat) (h : b ≤ a) : voff ((a : Int) - b) = vint (a - b) := by
  unfold voff
  rw [if_neg (by omega)]
  congr 1
  omega

theorem termRead_spec (last t : Term) (h : t.length < 255) (rest : List Byte) : termRead last (termBytes last t ++ rest) = .ok (t, rest) := by
  have hle := stringDiff_le last t
  unfold termRead termBytes
  simp only [List.append_assoc]
  rw [rdVint_vint _ (by omega), Res.ok_bind, rdVint_vint _ (by omega), Res.ok_bind]
  dsimp only
  rw [if_neg (by omega), show t.length - stringDiff last t = (t.drop (stringDiff last t)).length by simp, rdBytes_append, Res.ok_bind]
  dsimp only
  rw [stringDiff_take, List.take_append_drop]

theorem entryRead_spec (si : Nat) (last last' : Term × TI) (e : Term × TI) (h1 : last'.1 = last.1) (h2 : Agrees si last'.2 last.2) (h : Fits last.2 e) (rest : List Byte) :
    ∃ ti, entryRead si last' (entryBytes si last e.1 e.2 ++ rest) = .ok ((e.1, ti), rest) ∧ Agrees si ti e.2 := by
  unfold entryRead entryBytes
  simp only [List.append_assoc]
  rw [h1, termRead_spec _ _ h.len, Res.ok_bind]
  dsimp only
  rw [rdVint_vint _ h.docFreq, Res.ok_bind]
  dsimp only
  rw [voff_sub _ _ h.frq, voff_sub _ _ h.prx, rdVll_vint _ (by have := h.frqLt; omega), Res.ok_bind]
  dsimp only
  rw [rdVll_vint _ (by have := h.prxLt; omega), Res.ok_bind]
  dsimp only
  have hf := h.frq
  have hp := h.prx
  by_cases hs : e.2.docFreq ≥ si
  · rw [if_pos hs, if_pos hs, rdVll_vint _ h.skip, Res.ok_bind]
    exact ⟨_, rfl, rfl, by rw [h2.frq]; dsimp only; omega, by rw [h2.prx]; dsimp only; omega, fun _ => rfl⟩
  · rw [if_neg hs, if_neg hs]
    exact ⟨_, rfl, rfl, by rw [h2.frq]; dsimp only; omega, by rw [h2.prx]; dsimp only; omega, fun h => absurd h hs⟩

/-! ### What a field is written as -/

/-- The bytes of the terms of a field after the entry `last`. -/
def encFrom (si : Nat) : Term × TI → List (Term × TI) → List Byte
  | _, [] => []
  | last, e :: es => entryBytes si last e.1 e.2 ++ encFrom si e es

/-- The entry before the `j`-th. -/
def entryAt (last : Term × TI) (es : List (Term × TI)) (j : Nat) : Term × TI := (last :: es)[j]?.getD last

/-- The index entries of the terms: the counter, the position in .tis, the last entry. -/
def blocks (si ii : Nat) : Nat → Nat → Term × TI → List (Term × TI) → List (Term × TI × Nat)
  | _, _, _, [] => []
  | c, pos, last, e :: es => (if c % ii = 0 then [(last.1, last.2, pos)] else []) ++ blocks si ii (c + 1) (pos + (entryBytes si last e.1 e.2).length) e es

/-- The bytes of index entries. -/
def encIdx (si : Nat) : Term × TI → Nat → List (Term × TI × Nat) → List Byte
  | _, _, [] => []
  | last, ptr, x :: xs => (entryBytes si last x.1 x.2.1 ++ voff ((x.2.2 : Int) - ptr)) ++ encIdx si (x.1, x.2.1) x.2.2 xs

theorem addTerms_spec : ∀ (es : List (Term × TI)) (w : TIW), 0 < w.indexInterval → ∃ w', addTerms w es = .ok w' ∧
    w'.tis.os = w.tis.os ++ encFrom w.skipInterval (w.tis.lastTerm, w.tis.lastTi) es ∧
    w'.tix.os = w.tix.os ++ encIdx w.skipInterval (w.tix.lastTerm, w.tix.lastTi) w.lastIndexPtr (blocks w.skipInterval w.indexInterval w.tis.counter w.tis.os.length (w.tis.lastTerm, w.tis.lastTi) es) ∧
    w'.tis.counter = w.tis.counter + es.length ∧
    w'.tix.counter = w.tix.counter + (blocks w.skipInterval w.indexInterval w.tis.counter w.tis.os.length (w.tis.lastTerm, w.tis.lastTi) es).length ∧
    w'.tfx = w.tfx ∧ w'.fieldCount = w.fieldCount ∧ w'.indexInterval = w.indexInterval ∧ w'.skipInterval = w.skipInterval := by
  intro es
  induction es with
  | nil => intro w _; exact ⟨w, rfl, by simp [encFrom], by simp [encIdx, blocks], by simp, by simp [blocks], rfl, rfl, rfl, rfl⟩
  | cons e es ih =>
    obtain ⟨t, ti⟩ := e
    intro w hw
    unfold addTerms tiwAdd
    rw [if_neg (by omega), Res.ok_bind]
    by_cases hc : w.tis.counter % w.indexInterval = 0
    · simp only [if_pos hc]
      obtain ⟨w', e1, e2, e3, e4, e5, e6⟩ := ih
        { w with tix := { twAdd w.tix w.tis.lastTerm w.tis.lastTi w.skipInterval with os := (twAdd w.tix w.tis.lastTerm w.tis.lastTi w.skipInterval).os ++ voff ((w.tis.os.length : Int) - w.lastIndexPtr) }, lastIndexPtr := w.tis.os.length, tis := twAdd w.tis t ti w.skipInterval } hw
      refine ⟨w', e1, ?_, ?_, ?_, ?_, e6⟩
      · rw [e2]; simp [twAdd, encFrom]
      · rw [e3]
        simp only [twAdd, blocks, if_pos hc, List.singleton_append, encIdx, List.append_assoc, List.length_append]
      · rw [e4]; simp [twAdd]; omega
      · rw [e5]; simp only [twAdd, blocks, if_pos hc, List.singleton_append, List.length_cons, List.length_append]; omega
    · simp only [if_neg hc]
      obtain ⟨w', e1, e2, e3, e4, e5, e6⟩ := ih { w with tis := twAdd w.tis t ti w.skipInterval } hw
      refine ⟨w', e1, ?_, ?_, ?_, ?_, e6⟩
      · rw [e2]; simp [twAdd, encFrom]
      · rw [e3]; simp only [twAdd, blocks, if_neg hc, List.nil_append, List.length_append]
      · rw [e4]; simp [twAdd]; omega
      · rw [e5]; simp only [twAdd, blocks, if_neg hc, List.nil_append, List.length_append]

theorem blocks_get (si ii : Nat) (hii : 0 < ii) : ∀ (es : List (Term × TI)) (c q r pos : Nat) (last : Term × TI), c + r = q * ii → r < ii → ∀ k,
    (blocks si ii c pos last es)[k]? = if r + k * ii < es.length then
      some ((entryAt last es (r + k * ii)).1, (entryAt last es (r + k * ii)).2, pos + (encFrom si last (es.take (r + k * ii))).length) else none := by
  intro es
  induction es with
  | nil => intro c q r pos last _ _ k; simp [blocks]
  | cons e es ih =>
    intro c q r pos last hq hr k
    have hstep : ∀ j, 0 < j → ∀ p, p = pos + (entryBytes si last e.1 e.2).length →
        (entryAt last (e :: es) j = entryAt e es (j - 1) ∨ ¬ j < (e :: es).length) ∧ pos + (encFrom si last ((e :: es).take j)).length = p + (encFrom si e (es.take (j - 1))).length := by
      intro j hj p hp
      obtain ⟨j, rfl⟩ : ∃ i, j = i + 1 := ⟨j - 1, by omega⟩
      simp only [Nat.add_sub_cancel, List.take_succ_cons, encFrom, List.length_append]
      refine ⟨?_, by omega⟩
      by_cases hlt : j + 1 < (e :: es).length
      · left
        unfold entryAt
        rw [List.getElem?_cons_succ]
        have : (e :: es)[j]? = some (e :: es)[j] := List.getElem?_eq_getElem (by omega)
        rw [this]; rfl
      · exact Or.inr hlt
    unfold blocks
    by_cases h0 : r = 0
    · subst h0
      have hc : c % ii = 0 := by rw [show c = q * ii by omega]; exact Nat.mul_mod_left q ii
      rw [if_pos hc, List.singleton_append]
      cases k with
      | zero =>
        simp only [List.getElem?_cons_zero, Nat.zero_mul, Nat.add_zero, List.length_cons, List.take_zero, encFrom, List.length_nil]
        rw [if_pos (by omega)]
        rfl
      | succ k =>
        rw [List.getElem?_cons_succ, ih (c + 1) (q + 1) (ii - 1) _ e (by rw [Nat.add_mul]; omega) (by omega) k]
        have hj : 0 + (k + 1) * ii = (ii - 1 + k * ii) + 1 := by rw [Nat.add_mul]; omega
        rw [hj]
        obtain ⟨h1, h2⟩ := hstep (ii - 1 + k * ii + 1) (by omega) _ rfl
        simp only [Nat.add_sub_cancel] at h1 h2
        simp only [List.length_cons, Nat.add_lt_add_iff_right]
        split
        · rename_i hlt
          rcases h1 with h1 | h1
          · rw [h1, h2]
          · exact absurd (by simpa using hlt) h1
        · rfl
    · have hc : ¬ c % ii = 0 := by
        intro hc
        have h1 : (c + r) % ii = 0 := by rw [hq]; exact Nat.mul_mod_left q ii
        rw [Nat.add_mod, hc, Nat.zero_add, Nat.mod_mod, Nat.mod_eq_of_lt hr] at h1
        exact h0 h1
      rw [if_neg hc, List.nil_append, ih (c + 1) q (r - 1) _ e (by omega) (by omega) k]
      have hj : r + k * ii = (r - 1 + k * ii) + 1 := by omega
      rw [hj]
      obtain ⟨h1, h2⟩ := hstep (r - 1 + k * ii + 1) (by omega) _ rfl
      simp only [Nat.add_sub_cancel] at h1 h2
      simp only [List.length_cons, Nat.add_lt_add_iff_right]
      split
      · rename_i hlt
        rcases h1 with h1 | h1
        · rw [h1, h2]
        · exact absurd (by simpa using hlt) h1
      · rfl

/-! ### Reading the index -/

def FitsAll : Term × TI → List (Term × TI) → Prop
  | _, [] => True
  | last, e :: es => Fits last.2 e ∧ FitsAll e es

def IdxFits : Term × TI → Nat → List (Term × TI × Nat) → Prop
  | _, _, [] => True
  | last, ptr, x :: xs => Fits last.2 (x.1, x.2.1) ∧ ptr ≤ x.2.2 ∧ x.2.2 < 2 ^ 64 ∧ IdxFits (x.1, x.2.1) x.2.2 xs

theorem blocks_fits (si ii : Nat) : ∀ (es : List (Term × TI)) (c pos : Nat) (last il : Term × TI) (ptr : Nat), FitsAll last es → Fits il.2 last → ptr ≤ pos →
    pos + (encFrom si last es).length < 2 ^ 64 → IdxFits il ptr (blocks si ii c pos last es) := by
  intro es
  induction es with
  | nil => intros; exact trivial
  | cons e es ih =>
    intro c pos last il ptr hf hil hp hlen
    simp only [encFrom, List.length_append] at hlen
    have hfe := hf.1
    unfold blocks
    split
    · rw [List.singleton_append]
      exact ⟨hil, hp, by dsimp only; omega, ih _ _ e (last.1, last.2) pos hf.2 hfe (by omega) (by omega)⟩
    · rw [List.nil_append]
      refine ih _ _ e il ptr hf.2 ⟨hfe.len, hfe.docFreq, hfe.frqLt, hfe.prxLt, hfe.skip, ?_, ?_⟩ (by omega) (by omega)
      · have := hil.frq; have := hfe.frq; omega
      · have := hil.prx; have := hfe.prx; omega

theorem indexLoop_spec (si : Nat) (rest : List Byte) : ∀ (xs : List (Term × TI × Nat)) (last last' : Term × TI) (ptr : Nat), IdxFits last ptr xs → last'.1 = last.1 → Agrees si last'.2 last.2 →
    ∃ ys, indexLoop si xs.length last' ptr (encIdx si last ptr xs ++ rest) = .ok (ys, rest) ∧ ys.length = xs.length ∧
      ∀ (k : Nat) x, xs[k]? = some x → ∃ ti, ys[k]? = some (x.1, ti, x.2.2) ∧ Agrees si ti x.2.1 := by
  intro xs
  induction xs with
  | nil => intro last last' ptr _ _ _; exact ⟨[], rfl, rfl, fun k x h => by simp at h⟩
  | cons x xs ih =>
    intro last last' ptr hf h1 h2
    obtain ⟨f1, f2, f3, f4⟩ := hf
    simp only [encIdx, List.append_assoc, List.length_cons, indexLoop]
    obtain ⟨ti, e1, a1⟩ := entryRead_spec si last last' (x.1, x.2.1) h1 h2 f1 (voff ((x.2.2 : Int) - ptr) ++ (encIdx si (x.1, x.2.1) x.2.2 xs ++ rest))
    rw [e1, Res.ok_bind]
    dsimp only
    rw [voff_sub _ _ f2, rdVll_vint _ (by omega), Res.ok_bind]
    dsimp only
    rw [show ptr + (x.2.2 - ptr) = x.2.2 by omega]
    obtain ⟨ys, e2, l2, g2⟩ := ih (x.1, x.2.1) (x.1, ti) x.2.2 f4 rfl a1
    rw [e2, Res.ok_bind]
    refine ⟨_, rfl, by simp [l2], fun k y hy => ?_⟩
    cases k with
    | zero => simp only [List.getElem?_cons_zero, Option.some.injEq] at hy; subst hy; exact ⟨ti, rfl, a1⟩
    | succ k => simp only [List.getElem?_cons_succ] at hy ⊢; exact g2 k y hy

/-! ### A field in the files -/

def start : Term × TI := ([], .zero)

theorem encFrom_append (si : Nat) : ∀ (a b : List (Term × TI)) (last : Term × TI), encFrom si last (a ++ b) = encFrom si last a ++ encFrom si (entryAt last a a.length) b := by
  intro a
  induction a with
  | nil => intro b last; simp [encFrom, entryAt]
  | cons e a ih =>
    intro b last
    simp only [List.cons_append, encFrom, ih, List.append_assoc]
    congr 3
    unfold entryAt
    simp only [List.length_cons, List.getElem?_cons_succ]
    have : (e :: a)[a.length]? = some (e :: a)[a.length] := List.getElem?_eq_getElem (by simp)
    rw [this]; rfl

/-- What the readers need of a field with entries `es`: where they are in .tis, and the table of index
terms. -/
structure FieldOK (sfi : SFI) (tis : List Byte) (sti : STI) (es : List (Term × TI)) : Prop where
  size : sti.size = es.length
  fits : FitsAll start es
  bytes : ∃ rest, tis.drop sti.ptr = encFrom sfi.skipInterval start es ++ rest
  pos : 0 < sfi.indexInterval
  index : ∃ idx, stiIndex sfi sti = .ok idx ∧ idx.length = sti.indexCnt ∧
    (∀ k, k * sfi.indexInterval < es.length → ∃ ti ptr, idx[k]? = some ((entryAt start es (k * sfi.indexInterval)).1, ti, ptr) ∧
      Agrees sfi.skipInterval ti (entryAt start es (k * sfi.indexInterval)).2 ∧
      ∃ rest, tis.drop ptr = encFrom sfi.skipInterval (entryAt start es (k * sfi.indexInterval)) (es.drop (k * sfi.indexInterval)) ++ rest) ∧
    (∀ k, ¬ k * sfi.indexInterval < es.length → idx[k]? = none)

theorem entryAt_take (last : Term × TI) (es : List (Term × TI)) (j : Nat) (h : j ≤ es.length) : entryAt last (es.take j) (es.take j).length = entryAt last es j := by
  unfold entryAt
  rw [List.length_take, Nat.min_eq_left h]
  congr 1
  cases j with
  | zero => rfl
  | succ j => simp only [List.getElem?_cons_succ]; rw [List.getElem?_take, if_pos (by omega)]

theorem fitsStart : Fits TI.zero start := ⟨by decide, by decide, by decide, by decide, by decide, by decide, by decide⟩

theorem fieldOK_of_bytes (sfi : SFI) (tis : List Byte) (sti : STI) (es : List (Term × TI)) (rest rest' : List Byte) (hii : 0 < sfi.indexInterval) (hf : FitsAll start es)
    (hsize : sti.size = es.length) (hcnt : sti.indexCnt = (blocks sfi.skipInterval sfi.indexInterval 0 sti.ptr start es).length)
    (hlen : sti.ptr + (encFrom sfi.skipInterval start es).length < 2 ^ 64)
    (htis : tis.drop sti.ptr = encFrom sfi.skipInterval start es ++ rest)
    (htix : sfi.tix.drop sti.indexPtr = encIdx sfi.skipInterval start 0 (blocks sfi.skipInterval sfi.indexInterval 0 sti.ptr start es) ++ rest') : FieldOK sfi tis sti es := by
  refine ⟨hsize, hf, ⟨rest, htis⟩, hii, ?_⟩
  obtain ⟨ys, e, l, g⟩ := indexLoop_spec sfi.skipInterval rest' (blocks sfi.skipInterval sfi.indexInterval 0 sti.ptr start es) start start 0
    (blocks_fits _ _ es 0 sti.ptr start start 0 hf fitsStart (Nat.zero_le _) hlen) rfl (Agrees.refl _ _)
  have hget := blocks_get sfi.skipInterval sfi.indexInterval hii es 0 0 0 sti.ptr start (by simp) hii
  simp only [Nat.zero_add] at hget
  refine ⟨ys, ?_, by rw [l, hcnt], fun k hk => ?_, fun k hk => ?_⟩
  · unfold stiIndex
    rw [htix, hcnt]
    have : (([], TI.zero) : Term × TI) = start := rfl
    rw [this, e]; rfl
  · have hk' := hget k
    rw [if_pos hk] at hk'
    obtain ⟨ti, e1, a1⟩ := g k _ hk'
    refine ⟨ti, _, e1, a1, rest, ?_⟩
    have hsplit : es = es.take (k * sfi.indexInterval) ++ es.drop (k * sfi.indexInterval) := (List.take_append_drop _ _).symm
    have henc : encFrom sfi.skipInterval start es = encFrom sfi.skipInterval start (es.take (k * sfi.indexInterval)) ++
        encFrom sfi.skipInterval (entryAt start es (k * sfi.indexInterval)) (es.drop (k * sfi.indexInterval)) := by
      conv => lhs; rw [hsplit]
      rw [encFrom_append, entryAt_take _ _ _ (by omega)]
    dsimp only
    rw [← List.drop_drop, htis, henc, List.append_assoc, List.drop_left]
  · have hk' := hget k
    rw [if_neg hk] at hk'
    rw [List.getElem?_eq_none_iff] at hk' ⊢
    omega

end Ferret.Dict
