import Verif.Lemmas.Sort
import Verif.Lemmas.Expand

/-! The order of a sort. -/

namespace Ferret.Sort
open Ferret Ferret.Spec Ferret.Search Ferret.PQ
open Ferret.Expand (Term)

variable {S : Type}

/-! ### Strict weak orders -/

theorem strictWeak_flip {α : Type} {p : α → α → Bool} (h : StrictWeak p) : StrictWeak fun a b => p b a :=
  ⟨fun a b hab => h.asymm _ _ hab, fun a b c h1 h2 => h.negTrans _ _ _ h2 h1⟩

theorem strictWeak_on {α β : Type} {p : β → β → Bool} (h : StrictWeak p) (f : α → β) : StrictWeak fun a b => p (f a) (f b) :=
  ⟨fun a b hab => h.asymm _ _ hab, fun a b c h1 h2 => h.negTrans _ _ _ h1 h2⟩

theorem strictWeak_lex {α : Type} {p q : α → α → Bool} (hp : StrictWeak p) (hq : StrictWeak q) :
    StrictWeak fun a b => p a b || (!p b a && q a b) := by
  constructor
  · intro a b h
    have a1 := hp.asymm a b
    have a2 := hq.asymm a b
    cases h1 : p a b <;> cases h2 : p b a <;> cases h3 : q a b <;> simp [h1, h2, h3] at h a1 a2 ⊢ <;> exact a2
  · intro a b c hab hbc
    have k1 := hp.negTrans a b c
    have k2 := hp.negTrans c b a
    have k3 := hp.negTrans b a c
    have k4 := hp.negTrans a c b
    have k5 := hp.negTrans b c a
    have k6 := hp.negTrans c a b
    have a1 := hp.asymm a b
    have a2 := hp.asymm b c
    have a3 := hp.asymm a c
    have m1 := hq.negTrans a b c
    cases h1 : p a b <;> cases h2 : p b a <;> cases h3 : p b c <;> cases h4 : p c b <;> cases h5 : p a c <;> cases h6 : p c a <;>
      simp [h1, h2, h3, h4, h5, h6] at hab hbc k1 k2 k3 k4 k5 k6 a1 a2 a3 ⊢ <;> exact m1 hab hbc

theorem natLt_strictWeak : StrictWeak fun a b : Nat => decide (a < b) :=
  ⟨fun a b h => by simp at h ⊢; omega, fun a b c h1 h2 => by simp at h1 h2 ⊢; omega⟩

theorem intLt_strictWeak : StrictWeak fun a b : Int => decide (a < b) :=
  ⟨fun a b h => by simp at h ⊢; omega, fun a b c h1 h2 => by simp at h1 h2 ⊢; omega⟩

theorem term_lt_asymm {s t : Term} (h : s < t) : ¬ t < s := by
  rw [← Expand.strLt_iff] at *
  rw [Expand.strLt_asymm s t h]; simp

theorem term_lt_negTrans {s t u : Term} (h1 : ¬ s < t) (h2 : ¬ t < u) : ¬ s < u := by
  intro h
  rw [← Expand.strLt_iff] at h1 h2 h
  simp only [Bool.not_eq_true] at h1 h2
  cases h3 : Expand.strLt t s with
  | true => rw [Expand.strLt_trans t s u h3 h] at h2; simp at h2
  | false => rw [Expand.strLt_total s t h1 h3] at h; rw [h] at h2; simp at h2

theorem byteBefore_strictWeak : StrictWeak byteBefore := by
  constructor
  · intro a b h
    cases a <;> cases b <;> simp [byteBefore] at h ⊢
    exact fun h' => term_lt_asymm h h'
  · intro a b c h1 h2
    cases a <;> cases b <;> cases c <;> simp [byteBefore] at h1 h2 ⊢
    exact fun h' => term_lt_negTrans (fun h => h1 h) (fun h => h2 h) h'

theorem strBefore_strictWeak {coll : Term → Term → Int} (hc : Collation coll) : StrictWeak (strBefore coll) := by
  constructor
  · intro a b h
    cases a <;> cases b <;> simp [strBefore] at h ⊢
    rename_i s t
    have := (hc.swap t s).2 h; omega
  · intro a b c h1 h2
    cases a <;> cases b <;> cases c <;> simp [strBefore] at h1 h2 ⊢
    rename_i s t u
    have e1 : coll t s ≤ 0 := by
      have := hc.swap t s; omega
    have e2 : coll u t ≤ 0 := by
      have := hc.swap u t; omega
    have e3 := hc.trans u t s e2 e1
    have := hc.swap u s; omega

theorem comesBefore_strictWeak {v : Values S} (h : LibOK v.lib) (sf : SortField) : StrictWeak (comesBefore v sf) := by
  unfold comesBefore
  cases sf.type with
  | score => exact strictWeak_on (strictWeak_flip h.float) (fun a : Hit S => a.score)
  | doc => exact strictWeak_on natLt_strictWeak (fun a : Hit S => a.doc)
  | byte => exact strictWeak_on byteBefore_strictWeak (fun a : Hit S => v.val sf.field a.doc)
  | integer => exact strictWeak_on intLt_strictWeak (fun a : Hit S => v.int sf.field a.doc)
  | float => exact strictWeak_on h.float (fun a : Hit S => v.float sf.field a.doc)
  | string => exact strictWeak_on (strBefore_strictWeak h.coll) (fun a : Hit S => v.val sf.field a.doc)
  | auto => exact ⟨(fun _ _ h => nomatch h), fun _ _ _ _ _ => rfl⟩

theorem precedes_strictWeak {v : Values S} (h : LibOK v.lib) (sf : SortField) : StrictWeak (precedes v sf) := by
  unfold precedes
  cases sf.reverse with
  | true => exact strictWeak_flip (comesBefore_strictWeak h sf)
  | false => exact comesBefore_strictWeak h sf

theorem listedBefore_strictWeak {v : Values S} (h : LibOK v.lib) : ∀ sfs, StrictWeak (listedBefore v sfs)
  | [] => strictWeak_on natLt_strictWeak (fun a : Hit S => a.doc)
  | sf :: sfs => strictWeak_lex (precedes_strictWeak h sf) (listedBefore_strictWeak h sfs)

theorem listedBefore_tie {v : Values S} : ∀ (sfs : List SortField) (a b : Hit S), listedBefore v sfs a b = false → listedBefore v sfs b a = false → a.doc = b.doc
  | [], a, b, h1, h2 => by simp [listedBefore] at h1 h2; omega
  | sf :: sfs, a, b, h1, h2 => by
    simp only [listedBefore, Bool.or_eq_false_iff, Bool.and_eq_false_imp, Bool.not_eq_true'] at h1 h2
    exact listedBefore_tie sfs a b (h1.2 h2.1) (h2.2 h1.1)

/-! ### The comparison functions -/

/-- The sign of a comparison says who comes first. -/
def Signed (c : Int) (after before : Bool) : Prop := (0 < c ↔ after = true) ∧ (c < 0 ↔ before = true)

theorem signed_lt {p q : Bool} (h : p = true → q = false) : Signed (if p then 1 else if q then -1 else 0) p q := by
  cases p <;> cases q <;> simp [Signed] at h ⊢

theorem signed_int (x y : Int) : Signed (if x > y then 1 else if x < y then -1 else 0) (decide (y < x)) (decide (x < y)) := by
  unfold Signed
  constructor
  · by_cases h : x > y
    · simp [h]
    · by_cases h2 : x < y <;> simp [h, h2] <;> omega
  · by_cases h : x > y
    · simp [h]; omega
    · by_cases h2 : x < y <;> simp [h, h2]

theorem signed_str {lib : Lib S} (h : LibOK lib) (s t : Option Term) : Signed (strCompare lib s t) (strBefore lib.coll t s) (strBefore lib.coll s t) := by
  unfold Signed
  cases s <;> cases t <;> simp [strCompare, strBefore]
  rename_i s t
  exact h.coll.swap s t

/-- The ordinals of terms in order compare as the terms. -/
theorem signed_byte {terms : List (Term × List Nat)} (hs : terms.Pairwise fun a b => a.1 < b.1) (d e : Nat) :
    Signed (if (lastVal (numbered 1 terms) d).getD 0 > (lastVal (numbered 1 terms) e).getD 0 then 1
      else if (lastVal (numbered 1 terms) d).getD 0 < (lastVal (numbered 1 terms) e).getD 0 then -1 else 0)
      (byteBefore (lastTerm terms e) (lastTerm terms d)) (byteBefore (lastTerm terms d) (lastTerm terms e)) := by
  have key : ∀ d e, (decide ((lastVal (numbered 1 terms) d).getD 0 < (lastVal (numbered 1 terms) e).getD 0)) =
      byteBefore (lastTerm terms d) (lastTerm terms e) := by
    intro d e
    rw [lastTerm_eq, lastTerm_eq]
    rcases numbered_last terms 1 d with ⟨h1, h2⟩ | ⟨i, x, h1, h2, h3⟩ <;> rcases numbered_last terms 1 e with ⟨k1, k2⟩ | ⟨j, y, k1, k2, k3⟩
    · rw [h1, h2, k1, k2]; rfl
    · rw [h1, h2, k2, k3]; simp [byteBefore]; omega
    · rw [h2, h3, k1, k2]; simp [byteBefore]; omega
    · rw [h2, h3, k2, k3]
      simp only [byteBefore, Option.getD_some]
      rw [List.pairwise_iff_getElem] at hs
      obtain ⟨hi, rfl⟩ := List.getElem?_eq_some_iff.1 h1
      obtain ⟨hj, rfl⟩ := List.getElem?_eq_some_iff.1 k1
      rw [decide_eq_decide]
      constructor
      · intro h; exact hs i j hi hj (by omega)
      · intro h
        have : ¬ j < i := fun h' => term_lt_asymm h (hs j i hj hi h')
        have : i ≠ j := by
          rintro rfl
          exact term_lt_asymm h h
        omega
  have := signed_int ((lastVal (numbered 1 terms) d).getD 0) ((lastVal (numbered 1 terms) e).getD 0)
  rwa [key e d, key d e] at this

/-- Comparing what the comparators read is comparing the documents. -/
theorem compare_signed {lib : Lib S} (h : LibOK lib) {maxDoc : Nat} {terms : List Byte → Option (List (Term × List Nat))} {sf : SortField}
    (hok : FieldOK lib maxDoc ((terms sf.field).getD []) sf.type) (hauto : sf.type ≠ .auto) (a b : Hit S) :
    Signed (compare lib sf.type (keyOf lib ((terms sf.field).getD []) sf.type a.doc a.score) (keyOf lib ((terms sf.field).getD []) sf.type b.doc b.score))
      (comesBefore (valuesIn lib terms) sf b a) (comesBefore (valuesIn lib terms) sf a b) := by
  have hval : ∀ d, (valuesIn lib terms).val sf.field d = lastTerm ((terms sf.field).getD []) d := by
    intro d
    simp only [valuesIn]
    cases terms sf.field <;> rfl
  unfold comesBefore
  cases ht : sf.type with
  | auto => exact absurd ht hauto
  | score => exact signed_lt (h.float.asymm _ _)
  | doc =>
    simp only [compare, keyOf]
    have := signed_int a.doc b.doc
    simpa using this
  | byte => simp only [compare, keyOf]; rw [hval, hval]; exact signed_byte (hok.sorted ht) _ _
  | integer =>
    simp only [compare, keyOf, Values.int, hval]
    exact signed_int _ _
  | float =>
    simp only [compare, keyOf, Values.float, hval]
    exact signed_lt (h.float.asymm _ _)
  | string => simp only [compare, keyOf]; rw [hval, hval]; exact signed_str h _ _

/-- A hit with what it is sorted by. -/
def mkDoc (K : SortField → Hit S → Key S) (sfs : List SortField) (h : Hit S) : FieldDoc S :=
  ⟨h.doc, h.score, sfs.map fun sf => ⟨sf.type, K sf h, sf.reverse⟩⟩

theorem fshqDiff_signed {lib : Lib S} {v : Values S} {K : SortField → Hit S → Key S} (a b : Hit S) : ∀ (sfs : List SortField),
    (∀ sf ∈ sfs, ∀ x y, Signed (compare lib sf.type (K sf x) (K sf y)) (comesBefore v sf y x) (comesBefore v sf x y)) →
    (let diff := fshqDiff lib (mkDoc K sfs a).cmps (mkDoc K sfs b).cmps
     if diff ≠ 0 then decide (diff > 0) else decide (a.doc > b.doc)) = listedBefore v sfs b a
  | [], _ => by simp [mkDoc, fshqDiff, listedBefore]
  | sf :: sfs, h => by
    have ih := fshqDiff_signed a b sfs (fun x hx => h x (List.mem_cons_of_mem _ hx))
    have hsf := h sf (List.mem_cons_self ..)
    simp only [mkDoc, List.map_cons, fshqDiff, listedBefore] at ih ⊢
    have hs : Signed (if sf.reverse = true then compare lib sf.type (K sf b) (K sf a) else compare lib sf.type (K sf a) (K sf b))
        (precedes v sf b a) (precedes v sf a b) := by
      unfold precedes
      cases sf.reverse with
      | true => exact hsf b a
      | false => exact hsf a b
    generalize (if sf.reverse = true then compare lib sf.type (K sf b) (K sf a) else compare lib sf.type (K sf a) (K sf b)) = c at hs
    obtain ⟨h1, h2⟩ := hs
    by_cases hc : c = 0
    · subst hc
      simp only [if_true]
      refine Eq.trans ih ?_
      cases e1 : precedes v sf b a <;> cases e2 : precedes v sf a b <;> simp [e1, e2] at h1 h2 ⊢
    · rw [if_neg hc, if_pos hc]
      by_cases hp : 0 < c
      · rw [h1.1 hp]; simp [hp]
      · have hb := h2.1 (by omega)
        have : precedes v sf b a = false := by
          cases e : precedes v sf b a with
          | true => exact absurd (h1.2 e) hp
          | false => rfl
        rw [this, hb]; simp; omega

theorem fshqLt_listed {lib : Lib S} {v : Values S} {K : SortField → Hit S → Key S} {sfs : List SortField}
    (h : ∀ sf ∈ sfs, ∀ x y, Signed (compare lib sf.type (K sf x) (K sf y)) (comesBefore v sf y x) (comesBefore v sf x y)) (a b : Hit S) :
    fshqLt lib (mkDoc K sfs a) (mkDoc K sfs b) = listedBefore v sfs b a := fshqDiff_signed a b sfs h

theorem fdshqDiff_signed {lib : Lib S} {v : Values S} {K : SortField → Hit S → Key S} (a b : Hit S) : ∀ (sfs : List SortField),
    (∀ sf ∈ sfs, ∀ x y : Hit S, Signed (fdCompare lib x.doc y.doc sf.type (K sf x) (K sf y)) (comesBefore v sf y x) (comesBefore v sf x y)) →
    (let c := fdshqDiff lib a.doc b.doc (mkDoc K sfs a).cmps (mkDoc K sfs b).cmps
     if c = 0 then decide (a.doc > b.doc) else decide (c > 0)) = listedBefore v sfs b a
  | [], _ => by simp [mkDoc, fdshqDiff, listedBefore]
  | sf :: sfs, h => by
    have ih := fdshqDiff_signed a b sfs (fun x hx => h x (List.mem_cons_of_mem _ hx))
    have hsf := h sf (List.mem_cons_self ..)
    simp only [mkDoc, List.map_cons, fdshqDiff, listedBefore] at ih ⊢
    have hs : Signed (if sf.reverse = true then -fdCompare lib a.doc b.doc sf.type (K sf a) (K sf b) else fdCompare lib a.doc b.doc sf.type (K sf a) (K sf b))
        (precedes v sf b a) (precedes v sf a b) := by
      unfold precedes
      cases sf.reverse with
      | true =>
        have := hsf a b
        unfold Signed at *
        simp only [if_true]
        exact ⟨by rw [← this.2]; omega, by rw [← this.1]; omega⟩
      | false => exact hsf a b
    generalize (if sf.reverse = true then -fdCompare lib a.doc b.doc sf.type (K sf a) (K sf b) else fdCompare lib a.doc b.doc sf.type (K sf a) (K sf b)) = c at hs
    obtain ⟨h1, h2⟩ := hs
    by_cases hc : c = 0
    · subst hc
      simp only [if_true]
      refine Eq.trans ih ?_
      cases e1 : precedes v sf b a <;> cases e2 : precedes v sf a b <;> simp [e1, e2] at h1 h2 ⊢
    · rw [if_neg hc, if_neg hc]
      by_cases hp : 0 < c
      · rw [h1.1 hp]; simp [hp]
      · have hb := h2.1 (by omega)
        have : precedes v sf b a = false := by
          cases e : precedes v sf b a with
          | true => exact absurd (h1.2 e) hp
          | false => rfl
        rw [this, hb]; simp; omega

theorem fdshqLt_listed {lib : Lib S} {v : Values S} {K : SortField → Hit S → Key S} {sfs : List SortField}
    (h : ∀ sf ∈ sfs, ∀ x y : Hit S, Signed (fdCompare lib x.doc y.doc sf.type (K sf x) (K sf y)) (comesBefore v sf y x) (comesBefore v sf x y)) (a b : Hit S) :
    fdshqLt lib (mkDoc K sfs a) (mkDoc K sfs b) = listedBefore v sfs b a := fdshqDiff_signed a b sfs h

end Ferret.Sort
