import Verif.Model.Documents

/-!
Documents in memory and what a program sees of them (C97).
-/

namespace Ferret.Docs
open Ferret Ferret.Spec

/-- What is in memory for each thing. -/
def CellRel (syms : List (List Byte)) : Cell → Thing → Prop
  | .str b, .text b' => b = b'
  | .field f, .field name data own => syms[f.name]? = some name ∧ f.size = data.length ∧ f.destroy = own ∧ 0 < f.data.length ∧
      ∃ k, f.data = data.map (fun x => some (x.1, (x.2 : Int))) ++ List.replicate k none
  | .doc d, .doc fs => d.size = fs.length ∧ d.dict.map (fun p => (syms[p.1]?, p.2)) = fs.map (fun p => (some p.1, p.2)) ∧ 0 < d.fields.length ∧
      ∃ k, d.fields = fs.map (fun p => some p.2) ++ List.replicate k none
  | .gone, .freed => True
  | _, _ => False

/-- Fields hold no more of a text than there is. -/
def Lens (W : List Thing) : Prop :=
  ∀ (f : Nat) (name : List Byte) (data : List (Nat × Nat)) (own : Bool), W[f]? = some (.field name data own) → ∀ x ∈ data, x.1 < W.length ∧
    ∀ b, W[x.1]? = some (.text b) → x.2 ≤ b.length

structure Rel (st : St) (W : List Thing) : Prop where
  len : st.heap.length = W.length
  nodup : st.syms.Nodup
  cells : ∀ (i : Nat) (c : Cell) (t : Thing), st.heap[i]? = some c → W[i]? = some t → CellRel st.syms c t
  lens : Lens W

theorem Rel.cell {st : St} {W : List Thing} (h : Rel st W) {i : Nat} {t : Thing} (ht : W[i]? = some t) :
    ∃ c, st.heap[i]? = some c ∧ CellRel st.syms c t := by
  have hi : i < W.length := (List.getElem?_eq_some_iff.1 ht).1
  have hi' : i < st.heap.length := by rw [h.len]; exact hi
  exact ⟨st.heap[i], List.getElem?_eq_getElem hi', h.cells i _ t (List.getElem?_eq_getElem hi') ht⟩

theorem Rel.str {st : St} {W : List Thing} (h : Rel st W) {i : Nat} {b : List Byte} (ht : W[i]? = some (.text b)) :
    st.heap[i]? = some (.str b) := by
  obtain ⟨c, hc, hr⟩ := h.cell ht
  cases c <;> simp only [CellRel] at hr
  rw [hc, hr]

theorem Rel.field {st : St} {W : List Thing} (h : Rel st W) {i : Nat} {name : List Byte} {data : List (Nat × Nat)} {own : Bool}
    (ht : W[i]? = some (.field name data own)) :
    ∃ f : DF, st.heap[i]? = some (.field f) ∧ CellRel st.syms (.field f) (.field name data own) := by
  obtain ⟨c, hc, hr⟩ := h.cell ht
  cases c <;> simp only [CellRel] at hr
  exact ⟨_, hc, hr⟩

theorem Rel.doc {st : St} {W : List Thing} (h : Rel st W) {i : Nat} {fs : List (List Byte × Nat)} (ht : W[i]? = some (.doc fs)) :
    ∃ d : Doc, st.heap[i]? = some (.doc d) ∧ CellRel st.syms (.doc d) (.doc fs) := by
  obtain ⟨c, hc, hr⟩ := h.cell ht
  cases c <;> simp only [CellRel] at hr
  exact ⟨_, hc, hr⟩

theorem Rel.set {st : St} {W : List Thing} (h : Rel st W) (i : Nat) {c : Cell} {t : Thing} (hr : CellRel st.syms c t) (hl : Lens (W.set i t)) :
    Rel { st with heap := st.heap.set i c } (W.set i t) := by
  refine ⟨by simp [h.len], h.nodup, ?_, hl⟩
  intro j c' t' hc ht
  simp only [List.getElem?_set] at hc ht
  by_cases e : i = j
  · rw [if_pos e] at hc ht
    split at hc
    · split at ht
      · cases hc; cases ht; exact hr
      · cases ht
    · cases hc
  · rw [if_neg e] at hc ht
    exact h.cells j c' t' hc ht

theorem Lens.set {W : List Thing} (h : Lens W) (i : Nat) {t : Thing}
    (hf : ∀ name data own, t = .field name data own → ∀ x ∈ data, x.1 < W.length ∧ ∀ b, W[x.1]? = some (.text b) → x.2 ≤ b.length)
    (hn : ∀ b, t ≠ .text b) : Lens (W.set i t) := by
  intro f name data own hw x hx
  rw [List.length_set]
  simp only [List.getElem?_set] at hw
  by_cases e : i = f
  · rw [if_pos e] at hw
    split at hw
    · injection hw with hw
      obtain ⟨h1, h3⟩ := hf _ _ _ hw x hx
      refine ⟨h1, fun b hb => ?_⟩
      rw [List.getElem?_set] at hb
      split at hb
      · injection hb with hb; exact absurd hb (hn b)
      · exact h3 b hb
    · cases hw
  · rw [if_neg e] at hw
    obtain ⟨h1, h2⟩ := h f name data own hw x hx
    refine ⟨h1, fun b hb => ?_⟩
    rw [List.getElem?_set] at hb
    split at hb
    · split at hb
      · injection hb with hb; exact absurd hb (hn b)
      · cases hb
    · exact h2 b hb

theorem Lens.freed {W : List Thing} (h : Lens W) (i : Nat) : Lens (W.set i .freed) :=
  h.set i (fun _ _ _ e => by cases e) (fun _ e => by cases e)

theorem Lens.append {W : List Thing} (h : Lens W) {t : Thing} (hf : ∀ name data own, t = .field name data own → data = []) : Lens (W ++ [t]) := by
  intro f name data own hw x hx
  by_cases hlt : f < W.length
  · rw [List.getElem?_append_left hlt] at hw
    obtain ⟨h1, h2⟩ := h f name data own hw x hx
    refine ⟨by simp; omega, fun b hb => ?_⟩
    rw [List.getElem?_append_left h1] at hb
    exact h2 b hb
  · rw [List.getElem?_append_right (by omega)] at hw
    by_cases e : f - W.length = 0
    · rw [e] at hw
      simp only [List.getElem?_cons_zero, Option.some.injEq] at hw
      rw [hf _ _ _ hw] at hx
      cases hx
    · obtain ⟨m, hm⟩ : ∃ m, f - W.length = m + 1 := ⟨f - W.length - 1, by omega⟩
      rw [hm] at hw
      simp at hw

/-- Symbols once made stay. -/
theorem CellRel.mono {syms : List (List Byte)} (more : List (List Byte)) {c : Cell} {t : Thing} (h : CellRel syms c t) (hd : ∀ (d : Doc) p, c = .doc d → p ∈ d.dict → p.1 < syms.length) :
    CellRel (syms ++ more) c t := by
  cases c <;> cases t <;> simp only [CellRel] at h ⊢
  · exact h
  · obtain ⟨h1, h2⟩ := h
    refine ⟨?_, h2⟩
    rw [List.getElem?_append_left (List.getElem?_eq_some_iff.1 h1).1]
    exact h1
  · obtain ⟨h1, h2, h3⟩ := h
    refine ⟨h1, ?_, h3⟩
    rw [← h2]
    apply List.map_congr_left
    intro p hp
    rw [List.getElem?_append_left (hd _ p rfl hp)]

theorem dict_lt {syms : List (List Byte)} {dict : List (Nat × Nat)} {fs : List (List Byte × Nat)}
    (h : dict.map (fun p => (syms[p.1]?, p.2)) = fs.map (fun p => (some p.1, p.2))) : ∀ p ∈ dict, p.1 < syms.length := by
  intro p hp
  have : (syms[p.1]?, p.2) ∈ fs.map (fun p => (some p.1, p.2)) := by rw [← h]; exact List.mem_map.2 ⟨p, hp, rfl⟩
  obtain ⟨q, -, e⟩ := List.mem_map.1 this
  simp only [Prod.mk.injEq] at e
  exact (List.getElem?_eq_some_iff.1 e.1.symm).1

theorem CellRel.append {syms : List (List Byte)} (more : List (List Byte)) {c : Cell} {t : Thing} (h : CellRel syms c t) : CellRel (syms ++ more) c t := by
  refine h.mono more ?_
  intro d p e hp
  subst e
  cases t <;> simp only [CellRel] at h
  exact dict_lt h.2.1 p hp

theorem Rel.alloc {st : St} {W : List Thing} (h : Rel st W) {c : Cell} {t : Thing} (hr : CellRel st.syms c t) (hl : Lens (W ++ [t])) :
    Rel { st with heap := st.heap ++ [c] } (W ++ [t]) := by
  refine ⟨by simp [h.len], h.nodup, ?_, hl⟩
  intro j c' t' hc ht
  dsimp only at hc ⊢
  by_cases hlt : j < W.length
  · rw [List.getElem?_append_left hlt] at ht
    rw [List.getElem?_append_left (by rw [h.len]; exact hlt)] at hc
    exact h.cells j c' t' hc ht
  · rw [List.getElem?_append_right (by omega)] at ht
    rw [List.getElem?_append_right (by rw [h.len]; omega), h.len] at hc
    by_cases e : j - W.length = 0
    · rw [e] at hc ht
      cases hc; cases ht; exact hr
    · obtain ⟨m, hm⟩ : ∃ m, j - W.length = m + 1 := ⟨j - W.length - 1, by omega⟩
      rw [hm] at ht
      simp at ht

/-! ### Symbols -/

theorem intern_spec {syms : List (List Byte)} (hn : syms.Nodup) (s : List Byte) :
    (intern syms s).1.Nodup ∧ (intern syms s).1[(intern syms s).2]? = some s ∧ ∃ more, (intern syms s).1 = syms ++ more := by
  unfold intern
  cases h : syms.findIdx? (fun x => decide (x = s)) with
  | some i =>
    rw [List.findIdx?_eq_some_iff_getElem] at h
    obtain ⟨hi, he, -⟩ := h
    refine ⟨hn, ?_, [], by simp⟩
    rw [List.getElem?_eq_getElem hi]
    simpa using he
  | none =>
    rw [List.findIdx?_eq_none_iff] at h
    refine ⟨?_, by simp, [s], rfl⟩
    rw [List.nodup_append]
    refine ⟨hn, by simp, ?_⟩
    intro a ha b hb e
    simp only [List.mem_singleton] at hb
    have := h a ha
    rw [e, hb] at this
    simp at this

theorem Rel.intern {st : St} {W : List Thing} (h : Rel st W) (s : List Byte) : Rel ⟨st.heap, (Docs.intern st.syms s).1⟩ W := by
  obtain ⟨h1, -, more, h3⟩ := intern_spec h.nodup s
  refine ⟨h.len, h1, ?_, h.lens⟩
  intro i c t hc ht
  dsimp only
  rw [h3]
  exact (h.cells i c t hc ht).append more

/-- Equal symbols are equal names. -/
theorem sym_inj {syms : List (List Byte)} (hn : syms.Nodup) {i j : Nat} {a b : List Byte} (hi : syms[i]? = some a) (hj : syms[j]? = some b) :
    i = j ↔ a = b := by
  obtain ⟨h1, h2⟩ := List.getElem?_eq_some_iff.1 hi
  obtain ⟨h3, h4⟩ := List.getElem?_eq_some_iff.1 hj
  constructor
  · intro e; subst e; rw [hi] at hj; exact Option.some.inj hj
  · intro e
    rw [← h2, ← h4] at e
    exact (List.getElem_inj hn).1 e

/-! ### Arrays -/

theorem store_ok {α : Type} {k : Nat} (hk : 2 ≤ k) (hk' : k ≤ 4) {arr : List (Option α)} {xs : List α} {m : Nat} (x : α)
    (ha : arr = xs.map some ++ List.replicate m none) (hp : 0 < arr.length) (hl : xs.length < 2 ^ 29) :
    ∃ m', store k arr xs.length x = .ok ((xs ++ [x]).map some ++ List.replicate m' none) := by
  have hlen : arr.length = xs.length + m := by rw [ha]; simp
  have put : ∀ n, 0 < n → (xs.map some ++ List.replicate n none).set xs.length (some x) = (xs ++ [x]).map some ++ List.replicate (n - 1) none := by
    intro n hn
    obtain ⟨n, rfl⟩ : ∃ j, n = j + 1 := ⟨n - 1, by omega⟩
    have : xs.length = (xs.map some).length := by simp
    rw [this, List.set_append_right _ _ (Nat.le_refl _), Nat.sub_self]
    simp [List.replicate_succ]
  by_cases hm : m = 0
  · have h2 : arr.length * k < 2 ^ 31 := by
      rw [hlen, hm]
      have : (xs.length + 0) * k ≤ xs.length * 4 := Nat.mul_le_mul (by omega) hk'
      omega
    have h3 : arr.length * 2 ≤ arr.length * k := Nat.mul_le_mul (Nat.le_refl _) hk
    refine ⟨arr.length * k - arr.length - 1, ?_⟩
    unfold store
    rw [if_pos (by omega), if_pos h2, Res.ok_bind, if_pos (by simp; omega), ha, hm]
    simp only [List.replicate_zero, List.append_nil]
    rw [put _ (by rw [hm] at ha; simp only [List.replicate_zero, List.append_nil] at ha; rw [← ha]; omega)]
  · refine ⟨m - 1, ?_⟩
    unfold store
    rw [if_neg (by omega), Res.ok_bind, if_pos (by omega), ha, put m (by omega)]

theorem slots_ok {α : Type} (xs : List α) : ∀ (pre rest : List (Option α)), slots (pre ++ (xs.map some ++ rest)) pre.length xs.length = .ok xs := by
  induction xs with
  | nil => intro pre rest; rfl
  | cons x xs ih =>
    intro pre rest
    have h1 : (pre ++ ((x :: xs).map some ++ rest))[pre.length]? = some (some x) := by
      rw [List.getElem?_append_right (Nat.le_refl _)]; simp
    simp only [List.length_cons, slots, h1]
    have := ih (pre ++ [some x]) rest
    simp only [List.length_append, List.length_cons, List.length_nil, Nat.zero_add, List.append_assoc, List.cons_append, List.nil_append] at this
    simp only [List.map_cons, List.cons_append]
    rw [this]
    rfl

theorem slots_data {arr : List (Option (Nat × Int))} {data : List (Nat × Nat)} {k : Nat}
    (h : arr = data.map (fun x => some (x.1, (x.2 : Int))) ++ List.replicate k none) :
    slots arr 0 data.length = .ok (data.map fun x => (x.1, (x.2 : Int))) := by
  have := slots_ok (data.map fun x => (x.1, (x.2 : Int))) [] (List.replicate k none)
  rw [h]
  simpa [List.map_map, Function.comp_def] using this

theorem slots_fields {arr : List (Option Nat)} {fs : List (List Byte × Nat)} {k : Nat}
    (h : arr = fs.map (fun p => some p.2) ++ List.replicate k none) : slots arr 0 fs.length = .ok (fs.map (·.2)) := by
  have := slots_ok (fs.map (·.2)) [] (List.replicate k none)
  rw [h]
  simpa [List.map_map, Function.comp_def] using this

/-! ### Freeing -/

theorem release_ok {h : List Cell} {a : Nat} {c : Cell} (hc : h[a]? = some c) (hg : c ≠ .gone) : release h a = .ok (h.set a .gone) := by
  unfold release
  rw [hc]
  cases c <;> first | rfl | exact absurd rfl hg

theorem releaseAll_ok (ss : List Nat) : ∀ (st : St) (W W' : List Thing), Rel st W → freeTexts W ss = some W' →
    ∃ h, releaseAll st.heap ss = .ok h ∧ Rel { st with heap := h } W' := by
  induction ss with
  | nil => intro st W W' hr hf; cases hf; exact ⟨_, rfl, hr⟩
  | cons s ss ih =>
    intro st W W' hr hf
    simp only [freeTexts] at hf
    split at hf
    · rename_i b hb
      have h1 := hr.str hb
      have h2 : Rel { st with heap := st.heap.set s .gone } (W.set s .freed) := hr.set s (by simp [CellRel]) (hr.lens.freed s)
      obtain ⟨h, h3, h4⟩ := ih _ _ _ h2 hf
      refine ⟨h, ?_, h4⟩
      simp only [releaseAll, release_ok h1 (by simp), Res.ok_bind]
      exact h3
    · cases hf

theorem freeTexts_keeps (ss : List Nat) : ∀ (W W' : List Thing), freeTexts W ss = some W' → ∀ (i : Nat) (t : Thing), (∀ b, t ≠ .text b) → W[i]? = some t → W'[i]? = some t := by
  induction ss with
  | nil => intro W W' hf i t _ hi; cases hf; exact hi
  | cons s ss ih =>
    intro W W' hf i t ht hi
    simp only [freeTexts] at hf
    split at hf
    · rename_i b hb
      refine ih _ _ hf i t ht ?_
      rw [List.getElem?_set, if_neg]
      · exact hi
      · intro e; rw [e, hi] at hb; exact ht b (Option.some.inj hb)
    · cases hf

theorem dfDestroy_ok {st : St} {W W' : List Thing} (hr : Rel st W) {f : Nat} (hf : freeField W f = some W') :
    ∃ h, dfDestroy st.heap f = .ok h ∧ Rel { st with heap := h } W' := by
  unfold freeField at hf
  split at hf
  · rename_i name data own hw
    obtain ⟨df, h1, h2, h3, h4, h5, k, h6⟩ := hr.field hw
    have hg : getField st.heap f = .ok df := by unfold getField; rw [h1]
    split at hf
    · rename_i ho
      simp only [Option.map_eq_some_iff] at hf
      obtain ⟨W1, hW1, rfl⟩ := hf
      obtain ⟨h, h7, h8⟩ := releaseAll_ok _ st W W1 hr hW1
      have h9 := freeTexts_keeps _ _ _ hW1 f _ (by intro b e; cases e) hw
      obtain ⟨df', h10, -⟩ := h8.field h9
      refine ⟨h.set f .gone, ?_, h8.set f (by simp [CellRel]) (h8.lens.freed f)⟩
      unfold dfDestroy
      rw [hg, Res.ok_bind, h4, ho, if_pos rfl, h3, slots_data h6, Res.ok_bind, List.map_map]
      have : ((fun x : Nat × Int => x.1) ∘ fun x : Nat × Nat => (x.1, (x.2 : Int))) = fun x => x.1 := rfl
      rw [this, h7, Res.ok_bind, release_ok h10 (by simp)]
    · rename_i ho
      cases hf
      refine ⟨st.heap.set f .gone, ?_, hr.set f (by simp [CellRel]) (hr.lens.freed f)⟩
      unfold dfDestroy
      rw [hg, Res.ok_bind, h4, if_neg ho, Res.ok_bind, release_ok h1 (by simp)]
  · cases hf

theorem freeField_keeps {W W' : List Thing} {f : Nat} (hf : freeField W f = some W') {d : Nat} {fs : List (List Byte × Nat)} (hd : W[d]? = some (.doc fs)) :
    W'[d]? = some (.doc fs) := by
  unfold freeField at hf
  split at hf
  · rename_i name data own hw
    have hne : f ≠ d := by intro e; rw [e, hd] at hw; cases hw
    split at hf
    · simp only [Option.map_eq_some_iff] at hf
      obtain ⟨W1, hW1, rfl⟩ := hf
      rw [List.getElem?_set, if_neg hne]
      exact freeTexts_keeps _ _ _ hW1 d _ (by intro b e; cases e) hd
    · cases hf
      rw [List.getElem?_set, if_neg hne]
      exact hd
  · cases hf

theorem freeFields_keeps (fs : List Nat) : ∀ (W W' : List Thing), freeFields W fs = some W' → ∀ (d : Nat) (gs : List (List Byte × Nat)), W[d]? = some (.doc gs) → W'[d]? = some (.doc gs) := by
  induction fs with
  | nil => intro W W' hf d gs hd; cases hf; exact hd
  | cons f fs ih =>
    intro W W' hf d gs hd
    simp only [freeFields, Option.bind_eq_some_iff] at hf
    obtain ⟨W1, h1, h2⟩ := hf
    exact ih _ _ h2 d gs (freeField_keeps h1 hd)

theorem destroyFields_ok (dict : List (Nat × Nat)) : ∀ (st : St) (W W' : List Thing), Rel st W → freeFields W (dict.map (·.2)) = some W' →
    ∃ h, destroyFields st.heap dict = .ok h ∧ Rel { st with heap := h } W' := by
  induction dict with
  | nil => intro st W W' hr hf; cases hf; exact ⟨_, rfl, hr⟩
  | cons p ps ih =>
    intro st W W' hr hf
    simp only [List.map_cons, freeFields, Option.bind_eq_some_iff] at hf
    obtain ⟨W1, h1, h2⟩ := hf
    obtain ⟨h, h3, h4⟩ := dfDestroy_ok hr h1
    obtain ⟨h', h5, h6⟩ := ih _ _ _ h4 h2
    refine ⟨h', ?_, h6⟩
    simp only [destroyFields, h3, Res.ok_bind]
    exact h5

theorem dict_fields {syms : List (List Byte)} {dict : List (Nat × Nat)} {fs : List (List Byte × Nat)}
    (h : dict.map (fun p => (syms[p.1]?, p.2)) = fs.map (fun p => (some p.1, p.2))) : dict.map (·.2) = fs.map (·.2) := by
  have := congrArg (List.map (·.2)) h
  simpa [List.map_map, Function.comp_def] using this

theorem docDestroy_ok {st : St} {W W' : List Thing} (hr : Rel st W) {d : Nat} {fs : List (List Byte × Nat)} (hd : W[d]? = some (.doc fs))
    (hf : freeFields W (fs.map (·.2)) = some W') :
    ∃ h, docDestroy st.heap d = .ok h ∧ Rel { st with heap := h } (W'.set d .freed) := by
  obtain ⟨doc, h1, h2, h3, h4, k, h5⟩ := hr.doc hd
  have hg : getDoc st.heap d = .ok doc := by unfold getDoc; rw [h1]
  rw [← dict_fields h3] at hf
  obtain ⟨h, h6, h7⟩ := destroyFields_ok _ st W W' hr hf
  obtain ⟨doc', h8, -⟩ := h7.doc (freeFields_keeps _ _ _ hf d fs hd)
  refine ⟨h.set d .gone, ?_, h7.set d (by simp [CellRel]) (h7.lens.freed d)⟩
  unfold docDestroy
  rw [hg, Res.ok_bind, h6, Res.ok_bind, release_ok h8 (by simp)]

end Ferret.Docs
