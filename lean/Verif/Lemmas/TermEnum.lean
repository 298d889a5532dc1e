import Verif.Lemmas.TermDict

/-! Lemmas about the enumerator of a dictionary. -/

namespace Ferret.Dict
open Ferret Ferret.Expand

/-- The terms of a field in strictly increasing order. -/
def Asc (es : List (Term × TI)) : Prop := es.Pairwise fun a b => a.1 < b.1

/-- How many terms are below `t`. -/
def below (es : List (Term × TI)) (t : Term) : Nat := (es.takeWhile fun x => strLt x.1 t).length

theorem below_iff (t : Term) : ∀ (es : List (Term × TI)), Asc es → ∀ (m : Nat) x, es[m]? = some x → (m < below es t ↔ x.1 < t) := by
  intro es
  induction es with
  | nil => intro _ m x h; simp at h
  | cons e es ih =>
    intro hs m x hx
    obtain ⟨h1, h2⟩ := List.pairwise_cons.1 hs
    unfold below
    rw [List.takeWhile_cons]
    cases hlt : strLt e.1 t with
    | true =>
      simp only [if_true, List.length_cons]
      cases m with
      | zero =>
        simp only [List.getElem?_cons_zero, Option.some.injEq] at hx
        subst hx
        exact ⟨fun _ => (strLt_iff _ _).1 hlt, fun _ => by omega⟩
      | succ m =>
        simp only [List.getElem?_cons_succ] at hx
        have := ih h2 m x hx
        unfold below at this
        rw [← this]; omega
    | false =>
      simp only [Bool.false_eq_true, if_false, List.length_nil, Nat.not_lt_zero, false_iff]
      have hnot : ¬ e.1 < t := fun h => by rw [(strLt_iff _ _).2 h] at hlt; cases hlt
      cases m with
      | zero =>
        simp only [List.getElem?_cons_zero, Option.some.injEq] at hx
        subst hx; exact hnot
      | succ m =>
        simp only [List.getElem?_cons_succ] at hx
        exact fun h => hnot (List.lt_trans (h1 x (List.mem_of_getElem? hx)) h)

theorem below_le (es : List (Term × TI)) (t : Term) : below es t ≤ es.length := (List.takeWhile_sublist _).length_le

theorem strcmp_lt {s t : Term} : strcmp s t < 0 ↔ s < t := by
  unfold strcmp
  split
  · rename_i h; exact ⟨fun _ => (strLt_iff _ _).1 h, fun _ => by decide⟩
  · rename_i h
    exact ⟨(fun h => by split at h <;> omega), fun h2 => absurd ((strLt_iff _ _).2 h2) h⟩

theorem strcmp_gt {s t : Term} : strcmp s t > 0 ↔ t < s := by
  unfold strcmp
  split
  · rename_i h
    exact ⟨(fun h => by omega), fun h2 => absurd ((strLt_iff _ _).1 h) (List.lt_asymm h2)⟩
  · split
    · rename_i h; exact ⟨fun _ => (strLt_iff _ _).1 h, fun _ => by decide⟩
    · rename_i h; exact ⟨(fun h => by omega), fun h2 => absurd ((strLt_iff _ _).2 h2) h⟩

theorem strcmp_eq {s t : Term} : strcmp s t = 0 ↔ s = t := by
  constructor
  · intro h
    have h1 : ¬ s < t := fun h' => by have := strcmp_lt.2 h'; omega
    have h2 : ¬ t < s := fun h' => by have := strcmp_gt.2 h'; omega
    exact strLt_total s t (Bool.eq_false_iff.2 fun h => h1 ((strLt_iff _ _).1 h)) (Bool.eq_false_iff.2 fun h => h2 ((strLt_iff _ _).1 h))
  · rintro rfl
    have h1 : ¬ strcmp s s < 0 := fun h => List.lt_irrefl _ (strcmp_lt.1 h)
    have h2 : ¬ strcmp s s > 0 := fun h => List.lt_irrefl _ (strcmp_gt.1 h)
    omega

/-- The enumerator has read `i` entries. -/
structure At (si : Nat) (tis : List Byte) (e : STE) (es : List (Term × TI)) (i : Nat) : Prop where
  file : e.file = tis
  size : e.size = es.length
  pos : e.pos = (i : Int) - 1
  le : i ≤ es.length
  term : e.term = (entryAt start es i).1
  ti : Agrees si e.ti (entryAt start es i).2
  bytes : ∃ rest, e.is = encFrom si (entryAt start es i) (es.drop i) ++ rest

/-- The enumerator has passed the last entry. -/
structure Ended (tis : List Byte) (e : STE) (es : List (Term × TI)) : Prop where
  file : e.file = tis
  size : e.size = es.length
  pos : e.pos ≥ es.length
  term : e.term = []

theorem entryAt_succ (last : Term × TI) (es : List (Term × TI)) (i : Nat) (x : Term × TI) (h : es[i]? = some x) : entryAt last es (i + 1) = x := by
  unfold entryAt
  rw [List.getElem?_cons_succ, h]; rfl

theorem fitsAll_get : ∀ (es : List (Term × TI)) (last : Term × TI) (i : Nat) (x : Term × TI), FitsAll last es → es[i]? = some x → Fits (entryAt last es i).2 x := by
  intro es
  induction es with
  | nil => intro last i x _ h; simp at h
  | cons e es ih =>
    intro last i x hf hx
    cases i with
    | zero => simp only [List.getElem?_cons_zero, Option.some.injEq] at hx; subst hx; exact hf.1
    | succ i =>
      simp only [List.getElem?_cons_succ] at hx
      have h1 := ih e i x hf.2 hx
      have h2 : entryAt last (e :: es) (i + 1) = entryAt e es i := by
        unfold entryAt
        rw [List.getElem?_cons_succ]
        have hlt : i < es.length := (List.getElem?_eq_some_iff.1 hx).1
        have hlt' : i < (e :: es).length := by simp only [List.length_cons]; omega
        have : (e :: es)[i]? = some (e :: es)[i] := List.getElem?_eq_getElem hlt'
        rw [this]; rfl
      rw [h2]; exact h1

theorem steNext_at {si : Nat} {tis : List Byte} {e : STE} {es : List (Term × TI)} {i : Nat} (hf : FitsAll start es) (h : At si tis e es i) (x : Term × TI) (hx : es[i]? = some x) :
    ∃ e', steNext si e = .ok (e', some x.1) ∧ At si tis e' es (i + 1) ∧ e'.field = e.field := by
  have hlt : i < es.length := (List.getElem?_eq_some_iff.1 hx).1
  obtain ⟨rest, hb⟩ := h.bytes
  have hdrop : es.drop i = x :: es.drop (i + 1) := by
    rw [List.drop_eq_getElem_cons hlt]
    congr 1
    rw [List.getElem?_eq_getElem hlt] at hx
    exact Option.some.inj hx
  rw [hdrop, encFrom, List.append_assoc] at hb
  obtain ⟨ti, e1, a1⟩ := entryRead_spec si (entryAt start es i) (e.term, e.ti) x h.term h.ti (fitsAll_get es start i x hf hx) (encFrom si x (es.drop (i + 1)) ++ rest)
  have hs := h.size
  have hp := h.pos
  unfold steNext
  dsimp only
  rw [if_neg (by omega), hb, e1, Res.ok_bind]
  refine ⟨_, rfl, ⟨h.file, hs, by dsimp only; omega, hlt, ?_, ?_, ?_⟩, rfl⟩
  · rw [entryAt_succ _ _ _ _ hx]
  · rw [entryAt_succ _ _ _ _ hx]; exact a1
  · rw [entryAt_succ _ _ _ _ hx]; exact ⟨rest, rfl⟩

theorem steNext_end {si : Nat} {tis : List Byte} {e : STE} {es : List (Term × TI)} (h : At si tis e es es.length ∨ Ended tis e es) :
    ∃ e', steNext si e = .ok (e', none) ∧ Ended tis e' es ∧ e'.field = e.field := by
  have hs : e.size = es.length := h.elim (·.size) (·.size)
  have hp : e.pos + 1 ≥ es.length := h.elim (fun h => by have := h.pos; omega) (fun h => by have := h.pos; omega)
  unfold steNext
  dsimp only
  rw [if_pos (by omega)]
  exact ⟨_, rfl, ⟨h.elim (·.file) (·.file), hs, by dsimp only; omega, rfl⟩, rfl⟩

/-- What a search for `t` gives: the first term that is not below `t`. -/
def Found (si : Nat) (tis : List Byte) (es : List (Term × TI)) (t : Term) (field : Int) (r : Res (STE × Option Term)) : Prop :=
  ∃ e' o, r = .ok (e', o) ∧ e'.field = field ∧ o = es[below es t]?.map (·.1) ∧
    ((below es t < es.length ∧ At si tis e' es (below es t + 1)) ∨ (below es t = es.length ∧ Ended tis e' es))

theorem skipLoop_spec {si : Nat} {tis : List Byte} {es : List (Term × TI)} (hs : Asc es) (hf : FitsAll start es) (t : Term) : ∀ (fuel : Nat) (e : STE) (i : Nat),
    At si tis e es i → i ≤ below es t → es.length - i < fuel → Found si tis es t e.field (skipLoop si t fuel e) := by
  intro fuel
  induction fuel with
  | zero => intro e i _ _ h; omega
  | succ f ih =>
    intro e i h hi hfu
    have hbl := below_le es t
    unfold skipLoop
    by_cases hlt : i < es.length
    · have hx : es[i]? = some es[i] := List.getElem?_eq_getElem hlt
      obtain ⟨e', e1, h1, hfe⟩ := steNext_at hf h _ hx
      rw [e1, Res.ok_bind]
      dsimp only
      have hiff := below_iff t es hs i _ hx
      by_cases hc : strcmp es[i].1 t < 0
      · rw [if_pos hc, ← hfe]
        exact ih e' (i + 1) h1 (hiff.2 (strcmp_lt.1 hc)) (by omega)
      · rw [if_neg hc]
        have hib : below es t = i := by
          have : ¬ i < below es t := fun h => hc (strcmp_lt.2 (hiff.1 h))
          omega
        refine ⟨e', _, rfl, hfe, by rw [hib, hx]; rfl, Or.inl ⟨by omega, by rw [hib]; exact h1⟩⟩
    · have : i = es.length := by have := h.le; omega
      subst this
      obtain ⟨e', e1, h1, hfe⟩ := steNext_end (si := si) (Or.inl h)
      rw [e1, Res.ok_bind]
      have hib : below es t = es.length := by omega
      exact ⟨e', none, rfl, hfe, by rw [hib]; simp, Or.inr ⟨hib, h1⟩⟩

theorem teSkipTo_spec {sfi : SFI} {tis : List Byte} {es : List (Term × TI)} (hs : Asc es) (hf : FitsAll start es) (t : Term) (ht : t ≠ []) {e : STE} {i : Nat}
    (h : At sfi.skipInterval tis e es i) (hle : ¬ t < e.term) : Found sfi.skipInterval tis es t e.field (teSkipTo sfi e t) := by
  unfold teSkipTo
  have hsz := h.size
  have hpos := h.pos
  have hile := h.le
  by_cases hc : strcmp e.term t < 0
  · rw [if_pos hc]
    refine skipLoop_spec hs hf t _ e i h ?_ (by omega)
    cases i with
    | zero => omega
    | succ i =>
      have hx : es[i]? = some es[i] := List.getElem?_eq_getElem (by omega)
      have := (below_iff t es hs i _ hx).2
      rw [h.term, entryAt_succ _ _ _ _ hx] at hc
      exact this (strcmp_lt.1 hc)
  · rw [if_neg hc]
    have heq : e.term = t := strcmp_eq.1 (by have h1 : ¬ strcmp e.term t > 0 := fun h => hle (strcmp_gt.1 h); omega)
    cases i with
    | zero =>
      have := h.term
      rw [heq] at this
      exact absurd this ht
    | succ i =>
      have hx : es[i]? = some es[i] := List.getElem?_eq_getElem (by omega)
      have hterm := h.term
      rw [entryAt_succ _ _ _ _ hx] at hterm
      have h1 := below_iff t es hs i _ hx
      have h2 : ¬ i < below es t := fun h => List.lt_irrefl t (by have := h1.1 h; rwa [← hterm, heq] at this)
      have h3 : i ≤ below es t := by
        cases i with
        | zero => omega
        | succ i =>
          have hx' : es[i]? = some es[i] := List.getElem?_eq_getElem (by omega)
          refine (below_iff t es hs i _ hx').2 ?_
          have hlt := (List.pairwise_iff_getElem.1 hs) i (i + 1) (by omega) (by omega) (by omega)
          rwa [← hterm, heq] at hlt
      have hib : below es t = i := by omega
      refine ⟨e, _, rfl, rfl, by rw [hib, hx, hterm]; rfl, Or.inl ⟨by omega, by rw [hib]; exact h⟩⟩

theorem offsetLoop_spec (index : List (Term × TI × Nat)) (t : Term) (h0 : ∃ x, index[0]? = some x ∧ x.1 = []) : ∀ (fuel : Nat) (lo hi : Int), 0 ≤ lo → hi < index.length → lo ≤ hi + 1 → hi + 1 - lo < fuel →
    (∀ j : Nat, (j : Int) = lo - 1 → ∀ x, index[j]? = some x → ¬ t < x.1) → hi ≠ -1 →
    ∃ k : Nat, offsetLoop index t fuel lo hi = .ok (k : Int) ∧ ∃ x, index[k]? = some x ∧ ¬ t < x.1 := by
  intro fuel
  induction fuel with
  | zero => intro lo hi _ _ _ h; omega
  | succ f ih =>
    intro lo hi hlo hhi hle hfu hinv hne
    unfold offsetLoop
    by_cases hge : hi ≥ lo
    · rw [if_pos hge]
      dsimp only
      have hmid : lo ≤ (lo + hi) / 2 ∧ (lo + hi) / 2 ≤ hi := by omega
      generalize hm : (lo + hi) / 2 = mid at hmid
      have hlt : mid.toNat < index.length := by omega
      rw [List.getElem?_eq_getElem hlt]
      simp only [Res.ofOption, Res.ok_bind]
      by_cases hc1 : strcmp t index[mid.toNat].1 < 0
      · rw [if_pos hc1]
        have hm0 : mid ≠ 0 := by
          intro hm0
          obtain ⟨x, hx, hx1⟩ := h0
          subst hm0
          have : index[(0 : Int).toNat]? = some index[(0 : Int).toNat] := List.getElem?_eq_getElem hlt
          have he : index[(0 : Int).toNat]? = index[0]? := rfl
          rw [he, hx] at this
          have := Option.some.inj this
          rw [← this, hx1] at hc1
          exact List.not_lt_nil _ (strcmp_lt.1 hc1)
        exact ih lo (mid - 1) hlo (by omega) (by omega) (by omega) hinv (by omega)
      · rw [if_neg hc1]
        by_cases hc2 : strcmp t index[mid.toNat].1 > 0
        · rw [if_pos hc2]
          refine ih (mid + 1) hi (by omega) hhi (by omega) (by omega) ?_ hne
          intro j hj x hx hlt2
          have hjm : j = mid.toNat := by omega
          subst hjm
          rw [List.getElem?_eq_getElem hlt] at hx
          cases Option.some.inj hx
          exact List.lt_asymm hlt2 (strcmp_gt.1 hc2)
        · rw [if_neg hc2]
          refine ⟨mid.toNat, by rw [Int.toNat_of_nonneg (by omega)], _, List.getElem?_eq_getElem hlt, ?_⟩
          exact fun h => hc1 (strcmp_lt.2 h)
    · rw [if_neg hge]
      have hh : hi = lo - 1 := by omega
      have hh0 : 0 ≤ hi := by omega
      have hlt : hi.toNat < index.length := by omega
      refine ⟨hi.toNat, by rw [Int.toNat_of_nonneg hh0], _, List.getElem?_eq_getElem hlt, ?_⟩
      exact hinv hi.toNat (by omega) _ (List.getElem?_eq_getElem hlt)

theorem indexOffset_spec (index : List (Term × TI × Nat)) (t : Term) (h0 : ∃ x, index[0]? = some x ∧ x.1 = []) :
    ∃ k : Nat, indexOffset index t = .ok (k : Int) ∧ ∃ x, index[k]? = some x ∧ ¬ t < x.1 := by
  have hl : 0 < index.length := by
    obtain ⟨x, hx, -⟩ := h0
    exact (List.getElem?_eq_some_iff.1 hx).1
  unfold indexOffset
  exact offsetLoop_spec index t h0 _ 0 _ (by omega) (by omega) (by omega) (by omega) (fun j hj => by omega) (by omega)

theorem indexSeek_spec {sfi : SFI} {tis : List Byte} {sti : STI} {es : List (Term × TI)} (hok : FieldOK sfi tis sti es) {idx : List (Term × TI × Nat)} (hidx : stiIndex sfi sti = .ok idx)
    {e : STE} (hfile : e.file = tis) (hsize : e.size = es.length) (k : Nat) {x : Term × TI × Nat} (hx : idx[k]? = some x) :
    ∃ e', indexSeek sfi idx e (k : Int) = .ok e' ∧ At sfi.skipInterval tis e' es (k * sfi.indexInterval) ∧ e'.field = e.field ∧ e'.term = x.1 ∧ k * sfi.indexInterval < es.length := by
  obtain ⟨idx', e1, -, h1, h2⟩ := hok.index
  rw [hidx] at e1
  cases e1
  have hk : k * sfi.indexInterval < es.length := by
    apply Classical.byContradiction
    intro hn
    rw [h2 k hn] at hx
    cases hx
  obtain ⟨ti, ptr, e2, a2, rest, hb⟩ := h1 k hk
  unfold indexSeek
  rw [if_neg (by omega), Int.toNat_natCast, hx]
  simp only [Res.ofOption, Res.ok_bind]
  rw [hx] at e2
  cases Option.some.inj e2
  refine ⟨_, rfl, ⟨hfile, hsize, ?_, by omega, rfl, a2, rest, ?_⟩, rfl, rfl, hk⟩
  · dsimp only; rw [Int.mul_comm, Int.natCast_mul]
  · show e.file.drop ptr = _
    rw [hfile, hb]

/-- ste_scan_to finds the first term that is not below the target, wherever the enumerator is. -/
theorem scanTo_spec {sfi : SFI} {tis : List Byte} {sti : STI} {es : List (Term × TI)} (hs : Asc es) (hok : FieldOK sfi tis sti es) (hpos : 0 < es.length)
    {e : STE} (hd : sfi.dict e.field = some sti) (t : Term) (h : (∃ i, At sfi.skipInterval tis e es i) ∨ Ended tis e es) :
    Found sfi.skipInterval tis es t e.field (scanTo sfi e t) := by
  have hfile : e.file = tis := h.elim (fun ⟨i, h⟩ => h.file) (·.file)
  have hsize : e.size = es.length := h.elim (fun ⟨i, h⟩ => h.size) (·.size)
  obtain ⟨idx, hidx, hlen, h1, h2⟩ := hok.index
  have hii := hok.pos
  have h00 : ∃ x, idx[0]? = some x ∧ x.1 = [] := by
    obtain ⟨ti, ptr, e0, -⟩ := h1 0 (by omega)
    exact ⟨_, e0, by simp [entryAt, start]⟩
  unfold scanTo
  rw [hd]
  dsimp only
  rw [if_pos (by rw [hok.size]; exact hpos), hidx, Res.ok_bind]
  by_cases ht : t = []
  · subst ht
    rw [if_pos rfl]
    obtain ⟨x, hx, -⟩ := h00
    obtain ⟨e', e1, a1, f1, -, -⟩ := indexSeek_spec hok hidx hfile hsize 0 hx
    have e1' : indexSeek sfi idx e 0 = .ok e' := e1
    rw [e1', Res.ok_bind]
    rw [Nat.zero_mul] at a1
    have hx0 : es[0]? = some es[0] := List.getElem?_eq_getElem hpos
    obtain ⟨e'', e2, a2, f2⟩ := steNext_at hok.fits a1 _ hx0
    rw [e2]
    have hb0 : below es [] = 0 := by
      have := below_iff [] es hs 0 _ hx0
      have : ¬ 0 < below es [] := fun h => List.not_lt_nil _ (this.1 h)
      omega
    exact ⟨e'', _, rfl, f2.trans f1, by rw [hb0, hx0]; rfl, Or.inl ⟨by omega, by rw [hb0]; exact a2⟩⟩
  · rw [if_neg ht]
    have jump : Found sfi.skipInterval tis es t e.field (indexOffset idx t >>= fun k => indexSeek sfi idx e k >>= fun e => teSkipTo sfi e t) := by
      obtain ⟨k, ek, x, hx, hle⟩ := indexOffset_spec idx t h00
      obtain ⟨e', e1, a1, f1, t1, -⟩ := indexSeek_spec hok hidx hfile hsize k hx
      rw [ek, Res.ok_bind, e1, Res.ok_bind, ← f1]
      exact teSkipTo_spec hs hok.fits t ht a1 (by rw [t1]; exact hle)
    by_cases hc : e.pos < e.size ∧ strcmp e.term t ≤ 0
    · rw [if_pos hc, if_neg (by omega)]
      rcases h with ⟨i, h⟩ | h
      · have hnl : ¬ t < e.term := fun h => by have := strcmp_gt.2 h; omega
        by_cases hoff : Int.tdiv e.pos sfi.indexInterval + 1 = sti.indexCnt
        · rw [if_pos hoff]
          exact teSkipTo_spec hs hok.fits t ht h hnl
        · rw [if_neg hoff]
          -- the next index term is in the table
          have hoffle : ∃ m : Nat, Int.tdiv e.pos sfi.indexInterval + 1 = (m : Int) ∧ m < idx.length := by
            have hin : ∀ k : Nat, k * sfi.indexInterval < es.length → k < idx.length := by
              intro k hk
              obtain ⟨ti, ptr, ek, -⟩ := h1 k hk
              exact (List.getElem?_eq_some_iff.1 ek).1
            rw [h.pos] at hoff ⊢
            cases i with
            | zero =>
              have hz : Int.tdiv ((0 : Nat) - 1 : Int) (sfi.indexInterval : Int) = 0 ∨ sfi.indexInterval = 1 := by
                by_cases h1' : sfi.indexInterval = 1
                · exact Or.inr h1'
                · left
                  rw [show ((0 : Nat) - 1 : Int) = -1 by omega, Int.neg_tdiv, Int.tdiv_eq_zero_of_lt (by omega) (by omega)]; rfl
              rcases hz with hz | hz
              · rw [hz] at hoff ⊢
                have := hin 0 (by omega)
                exact ⟨1, rfl, by omega⟩
              · rw [hz] at hoff ⊢
                rw [show Int.tdiv ((0 : Nat) - 1 : Int) ((1 : Nat) : Int) = -1 by decide] at hoff ⊢
                exact ⟨0, rfl, hin 0 (by omega)⟩
            | succ i =>
              have hp : ((i + 1 : Nat) : Int) - 1 = (i : Int) := by omega
              rw [hp, Int.tdiv_eq_ediv_of_nonneg (by omega), ← Int.natCast_ediv] at hoff ⊢
              have := hin (i / sfi.indexInterval) (Nat.lt_of_le_of_lt (Nat.div_mul_le_self i _) h.le)
              exact ⟨i / sfi.indexInterval + 1, rfl, by omega⟩
          obtain ⟨m, hm, hml⟩ := hoffle
          rw [hm, Int.toNat_natCast, List.getElem?_eq_getElem hml]
          simp only [Res.ofOption, Res.ok_bind]
          split
          · exact teSkipTo_spec hs hok.fits t ht h hnl
          · exact jump
      · have := h.pos; omega
    · rw [if_neg hc]
      exact jump

theorem getLoop_spec {si : Nat} {tis : List Byte} {es : List (Term × TI)} (hf : FitsAll start es) (p : Nat) (hp : p < es.length) : ∀ (fuel : Nat) (e : STE) (i : Nat), At si tis e es i → i ≤ p + 1 → p + 1 - i < fuel →
    ∃ e', getLoop si p fuel e = .ok (e', some es[p].1) ∧ At si tis e' es (p + 1) ∧ e'.field = e.field := by
  intro fuel
  induction fuel with
  | zero => intro e i _ _ h; omega
  | succ f ih =>
    intro e i h hi hfu
    have hpos := h.pos
    unfold getLoop
    by_cases hlt : e.pos < (p : Int)
    · rw [if_pos hlt]
      have hx : es[i]? = some es[i] := List.getElem?_eq_getElem (by omega)
      obtain ⟨e', e1, h1, f1⟩ := steNext_at hf h _ hx
      rw [e1, Res.ok_bind]
      dsimp only
      obtain ⟨e'', e2, h2, f2⟩ := ih e' (i + 1) h1 (by omega) (by omega)
      exact ⟨e'', e2, h2, f2.trans f1⟩
    · rw [if_neg hlt]
      have : i = p + 1 := by omega
      subst this
      have hx : es[p]? = some es[p] := List.getElem?_eq_getElem hp
      refine ⟨e, ?_, h, rfl⟩
      rw [h.term, entryAt_succ _ _ _ _ hx]

theorem getTerm_spec {sfi : SFI} {tis : List Byte} {sti : STI} {es : List (Term × TI)} (hok : FieldOK sfi tis sti es)
    {e : STE} (hd : sfi.dict e.field = some sti) (p : Nat) (hp : p < es.length) (h : (∃ i, At sfi.skipInterval tis e es i) ∨ Ended tis e es) :
    ∃ e', getTerm sfi e p = .ok (e', some es[p].1) ∧ At sfi.skipInterval tis e' es (p + 1) ∧ e'.field = e.field := by
  have hfile : e.file = tis := h.elim (fun ⟨i, h⟩ => h.file) (·.file)
  have hsize : e.size = es.length := h.elim (fun ⟨i, h⟩ => h.size) (·.size)
  obtain ⟨idx, hidx, hlen, h1, h2⟩ := hok.index
  have hii := hok.pos
  unfold getTerm
  rw [if_neg (by omega)]
  by_cases hne : (p : Int) ≠ e.pos
  · rw [if_pos hne, if_neg (by omega)]
    by_cases hfar : (p : Int) < e.pos ∨ (p : Int) > (1 + Int.tdiv e.pos sfi.indexInterval) * sfi.indexInterval
    · rw [if_pos hfar, hd]
      dsimp only
      rw [hidx, Res.ok_bind]
      have hpd : Int.tdiv (p : Int) sfi.indexInterval = ((p / sfi.indexInterval : Nat) : Int) := by
        rw [Int.tdiv_eq_ediv_of_nonneg (by omega), ← Int.natCast_ediv]
      rw [hpd]
      have hk : p / sfi.indexInterval * sfi.indexInterval ≤ p := Nat.div_mul_le_self ..
      obtain ⟨ti, ptr, ek, -⟩ := h1 (p / sfi.indexInterval) (by omega)
      obtain ⟨e', e1, a1, f1, -, -⟩ := indexSeek_spec hok hidx hfile hsize _ ek
      rw [e1, Res.ok_bind, ← f1]
      have := a1.pos
      exact getLoop_spec hok.fits p hp _ e' _ a1 (by omega) (by omega)
    · rw [if_neg hfar, Res.ok_bind]
      rcases h with ⟨i, h⟩ | h
      · have := h.pos
        exact getLoop_spec hok.fits p hp _ e i h (by omega) (by omega)
      · have := h.pos; omega
  · rw [if_neg hne]
    rcases h with ⟨i, h⟩ | h
    · have := h.pos
      have : i = p + 1 := by omega
      subst this
      have hx : es[p]? = some es[p] := List.getElem?_eq_getElem hp
      exact ⟨e, by rw [h.term, entryAt_succ _ _ _ _ hx], h, rfl⟩
    · have := h.pos; omega

end Ferret.Dict
