import Verif.Model.FieldInfos
import Verif.Lemmas.Codec

namespace Ferret.Fis
open Ferret Ferret.Spec

/-- What every table has: numbers that are positions and distinct names. -/
structure WF (t : FIS) : Prop where
  params : ¬ (t.index = 0 ∧ t.termVector ≠ 0)
  numbers : ∀ i (h : i < t.fields.length), t.fields[i].number = i
  names : (t.fields.map (·.name)).Nodup

/-- Everything fits the types of the file format. -/
structure Fits (t : FIS) : Prop where
  store : t.store < 2 ^ 32
  index : t.index < 2 ^ 32
  termVector : t.termVector < 2 ^ 32
  size : t.fields.length < 2 ^ 31
  field : ∀ f ∈ t.fields, f.name.length < 2 ^ 31 ∧ f.boost < 2 ^ 32 ∧ f.bits < 2 ^ 32

theorem getField_none {t : FIS} {n : Name} : getField t n = none ↔ n ∉ t.fields.map (·.name) := by
  unfold getField
  rw [List.find?_eq_none]
  simp only [List.mem_map, not_exists, not_and, beq_iff_eq]

theorem addField_wf {t t' : FIS} {f : FI} (h : WF t) (e : addField t f = .ok t') : WF t' := by
  unfold addField at e
  cases hg : getField t f.name with
  | some g => rw [hg] at e; cases e
  | none =>
    rw [hg] at e
    cases e
    have hn := getField_none.mp hg
    refine ⟨h.params, ?_, ?_⟩
    · intro i hi
      simp only [List.length_append, List.length_cons, List.length_nil] at hi
      rw [List.getElem_append]
      split
      · rename_i hlt; exact h.numbers i hlt
      · simp only [List.getElem_singleton]; omega
    · simp only [List.map_append, List.map_cons, List.map_nil]
      rw [List.nodup_append]
      refine ⟨h.names, by simp, ?_⟩
      intro a ha b hb
      simp at hb
      subst hb
      intro e; subst e
      exact hn ha

theorem fisNew_wf {s i v : Nat} {t : FIS} (e : fisNew s i v = .ok t) : WF t ∧ t.store = s ∧ t.index = i ∧ t.termVector = v := by
  unfold fisNew checkParams at e
  split at e
  · cases e
  · rename_i h
    cases e
    exact ⟨⟨h, fun i hi => absurd hi (by simp), by simp⟩, rfl, rfl, rfl⟩

theorem getOrAdd_wf {t t' : FIS} {n : Name} (h : WF t) (e : getOrAdd t n = .ok t') : WF t' := by
  unfold getOrAdd at e
  cases hg : getField t n with
  | some g => rw [hg] at e; cases e; exact h
  | none =>
    rw [hg] at e
    simp only [Res.bind_eq_ok] at e
    obtain ⟨f, -, e⟩ := e
    exact addField_wf h e

theorem exact_field (f : FI) (h : f.name.length < 2 ^ 31 ∧ f.boost < 2 ^ 32 ∧ f.bits < 2 ^ 32) :
    Exact fieldRead (fieldBytes f) { f with number := 0 } :=
  (exact_string f.name (by omega)).bind (f := fun n l => rdBE 4 0 l >>= fun b => rdVint b.2 >>= fun bits => .ok ((⟨n, b.1, bits.1, 0⟩ : FI), bits.2))
    ((exact_be 4 f.boost (by omega)).bind (f := fun b l => rdVint l >>= fun bits => .ok ((⟨f.name, b, bits.1, 0⟩ : FI), bits.2))
      ((exact_vint f.bits h.2.2).map (fun bits => (⟨f.name, f.boost, bits, 0⟩ : FI))))

theorem exact_fields : ∀ (fs : List FI) (t : FIS), (∀ f ∈ fs, f.name.length < 2 ^ 31 ∧ f.boost < 2 ^ 32 ∧ f.bits < 2 ^ 32) →
    (∀ i (h : i < fs.length), fs[i].number = t.fields.length + i) → ((t.fields ++ fs).map (·.name)).Nodup →
    Exact (fieldsRead fs.length t) (fs.map fieldBytes).flatten { t with fields := t.fields ++ fs } := by
  intro fs
  induction fs with
  | nil =>
    intro t _ _ _
    rw [List.append_nil]
    exact Exact.pure t
  | cons f fs ih =>
    intro t hf hn hd
    simp only [List.map_cons, List.flatten_cons]
    have hnot : getField t f.name = none := by
      rw [getField_none]
      simp only [List.map_append, List.map_cons] at hd
      rw [List.nodup_append] at hd
      intro hm
      exact hd.2.2 _ hm f.name (by simp) rfl
    have hnum : f.number = t.fields.length := by have := hn 0 (by simp); exact this
    have hadd : addField t { f with number := 0 } = .ok { t with fields := t.fields ++ [f] } := by
      unfold addField
      simp only [hnot]
      rw [← hnum]
    have hrest := ih { t with fields := t.fields ++ [f] } (fun g hg => hf g (by simp [hg]))
      (by intro i hi; have := hn (i + 1) (by simp; omega); simp at this ⊢; omega)
      (by simp only [List.append_assoc, List.singleton_append]; exact hd)
    have := (exact_field f (hf f (by simp))).bind (f := fun r l => addField t r >>= fun t => fieldsRead fs.length t l)
      (e' := (fs.map fieldBytes).flatten) (y := { t with fields := t.fields ++ f :: fs })
      (by simp only [hadd, Res.ok_bind]; simpa only [List.append_assoc, List.singleton_append] using hrest)
    exact this

theorem exact_head (t : FIS) (hp : ¬ (t.index = 0 ∧ t.termVector ≠ 0)) (h : Fits t) :
    Exact headRead (vint t.store ++ (vint t.index ++ vint t.termVector)) { t with fields := [] } := by
  refine (exact_vint t.store h.store).bind (f := fun s l => rdVint l >>= fun i => rdVint i.2 >>= fun v => fisNew s i.1 v.1 >>= fun t => .ok (t, v.2)) ?_
  refine (exact_vint t.index h.index).bind (f := fun i l => rdVint l >>= fun v => fisNew t.store i v.1 >>= fun t => .ok (t, v.2)) ?_
  have := (exact_vint t.termVector h.termVector).bind (f := fun v l => fisNew t.store t.index v >>= fun t => .ok (t, l)) (e' := [])
    (y := { t with fields := [] }) (by
      simp only [fisNew, checkParams, if_neg hp, Res.ok_bind]
      exact Exact.pure _)
  rwa [List.append_nil] at this

/-- The length of what is read before there is a table. -/
def headLen (t : FIS) : Nat := (vint t.store).length + ((vint t.index).length + (vint t.termVector).length)

theorem fisRead_spec (t : FIS) (hw : WF t) (h : Fits t) :
    (∀ rest, fisRead (fisWrite t ++ rest) = .ok (t, rest)) ∧
    (∀ k, k < headLen t → fisRead ((fisWrite t).take k) = .ub) ∧
    (∀ k, headLen t ≤ k → k < (fisWrite t).length → fisRead ((fisWrite t).take k) = .raise .eof) := by
  have hh := exact_head t hw.params h
  have hbody : Exact (fun l => rdVint l >>= fun n => fieldsRead (if toS 4 n.1 > 0 then n.1 else 0) { t with fields := [] } n.2)
      (vint t.fields.length ++ (t.fields.map fieldBytes).flatten) t := by
    refine (exact_vint t.fields.length (by have := h.size; omega)).bind (f := fun n l => fieldsRead (if toS 4 n > 0 then n else 0) { t with fields := [] } l) ?_
    have hs : (if toS 4 t.fields.length > 0 then t.fields.length else 0) = t.fields.length := by
      have := h.size
      have : toS 4 t.fields.length = (t.fields.length : Int) := by
        unfold toS; rw [if_pos (by omega)]
      rw [this]
      split <;> omega
    simp only [hs]
    exact exact_fields t.fields { t with fields := [] } h.field (by intro i hi; simpa using hw.numbers i hi) (by simpa using hw.names)
  have hdec : fisWrite t = (vint t.store ++ (vint t.index ++ vint t.termVector)) ++ (vint t.fields.length ++ (t.fields.map fieldBytes).flatten) := by
    simp only [fisWrite, List.append_assoc]
  have hlen : (vint t.store ++ (vint t.index ++ vint t.termVector)).length = headLen t := by simp [headLen]
  rw [hdec]
  refine ⟨?_, ?_, ?_⟩
  · intro rest
    rw [List.append_assoc]
    unfold fisRead
    rw [hh.full]
    simp only
    exact hbody.full rest
  · intro k hk
    rw [List.take_append_of_le_length (by omega)]
    unfold fisRead
    rw [hh.cut k (by omega)]
  · intro k hk hk'
    rw [List.take_append, List.take_of_length_le (by omega)]
    unfold fisRead
    rw [hh.full]
    simp only
    rw [List.length_append] at hk'
    exact hbody.cut _ (by omega)

end Ferret.Fis
