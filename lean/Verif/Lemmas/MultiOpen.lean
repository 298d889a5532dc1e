import Verif.Model.MultiOpen
import Verif.Lemmas.FieldInfos

namespace Ferret.MOpen
open Ferret Ferret.Fis
open Ferret.Spec (Name)

/-- Names with numbers. -/
def nums (t : FIS) : List (Name × Nat) := t.fields.map fun f => (f.name, f.number)

def numIn (l : List (Name × Nat)) (n : Name) : Int :=
  match l.find? (fun x => x.1 == n) with
  | some x => x.2
  | none => -1

theorem getFieldNum_nums (t : FIS) (n : Name) : getFieldNum t n = numIn (nums t) n := by
  unfold getFieldNum getField numIn nums
  rw [List.find?_map]
  have : ((fun x : Name × Nat => x.1 == n) ∘ fun f : FI => (f.name, f.number)) = fun f => f.name == n := rfl
  rw [this]
  cases t.fields.find? (fun f => f.name == n) <;> rfl

theorem numIn_append {l l' : List (Name × Nat)} {n : Name} (h : n ∈ l.map (·.1)) : numIn (l ++ l') n = numIn l n := by
  unfold numIn
  rw [List.find?_append]
  cases hf : l.find? (fun x => x.1 == n) with
  | some x => rfl
  | none =>
    rw [List.find?_eq_none] at hf
    obtain ⟨x, hx, rfl⟩ := List.mem_map.1 h
    exact absurd (beq_self_eq_true _) (hf x hx)

theorem getField_some {t : FIS} (h : WF t) {n : Name} {g : FI} (e : getField t n = some g) : g.name = n ∧ t.fields[g.number]? = some g := by
  unfold getField at e
  have h1 := List.find?_some e
  obtain ⟨i, hi, rfl⟩ := List.getElem_of_mem (List.mem_of_find?_eq_some e)
  refine ⟨by simpa using h1, ?_⟩
  rw [h.numbers i hi]
  exact List.getElem?_eq_getElem hi

theorem getField_at {t : FIS} (h : WF t) {i : Nat} {g : FI} (e : t.fields[i]? = some g) : getField t g.name = some g := by
  cases hf : getField t g.name with
  | none => exact absurd (List.mem_map.2 ⟨g, List.mem_of_getElem? e, rfl⟩) (getField_none.1 hf)
  | some g' =>
    obtain ⟨h1, h2⟩ := getField_some h hf
    have hn := h.names
    obtain ⟨hi, rfl⟩ := List.getElem?_eq_some_iff.1 e
    obtain ⟨hj, h3⟩ := List.getElem?_eq_some_iff.1 h2
    have : g'.number = i := by
      have hpw := List.pairwise_iff_getElem.1 hn
      rcases Nat.lt_trichotomy g'.number i with hlt | heq | hlt
      · refine absurd ?_ (hpw g'.number i (by rw [List.length_map]; exact hj) (by rw [List.length_map]; exact hi) hlt)
        rw [List.getElem_map, List.getElem_map, h3, h1]
      · exact heq
      · refine absurd ?_ (hpw i g'.number (by rw [List.length_map]; exact hi) (by rw [List.length_map]; exact hj) hlt)
        rw [List.getElem_map, List.getElem_map, h3, h1]
    subst this
    rw [h3]

/-- Another value for the bits. -/
theorem set_bits {t : FIS} (h : WF t) {g : FI} (e : t.fields[g.number]? = some g) (b : Nat) :
    let t' := { t with fields := t.fields.set g.number { g with bits := b } }
    WF t' ∧ nums t' = nums t ∧ t'.fields.map (·.name) = t.fields.map (·.name) := by
  obtain ⟨hi, he⟩ := List.getElem?_eq_some_iff.1 e
  have hname : (t.fields.set g.number { g with bits := b }).map (·.name) = t.fields.map (·.name) := by
    rw [List.map_set]
    apply List.ext_getElem? 
    intro j
    rw [List.getElem?_set]
    split
    · rename_i hj
      subst hj
      simp [hi, he]
    · rfl
  have hnum : (t.fields.set g.number { g with bits := b }).map (fun f => (f.name, f.number)) = t.fields.map fun f => (f.name, f.number) := by
    rw [List.map_set]
    apply List.ext_getElem? 
    intro j
    rw [List.getElem?_set]
    split
    · rename_i hj
      subst hj
      simp [hi, he]
    · rfl
  refine ⟨⟨h.params, ?_, ?_⟩, hnum, hname⟩
  · intro j hj
    dsimp only at hj ⊢
    rw [List.getElem_set]
    split
    · rename_i hjj; exact hjj
    · exact h.numbers j (by simpa using hj)
  · show List.Nodup (List.map _ _)
    dsimp only
    rw [hname]
    exact h.names

structure Merged (x : FIS × Bool) (seen : List FI) : Prop where
  wf : WF x.1
  plain : x.1.store = 0 ∧ x.1.index = 0 ∧ x.1.termVector = 0
  names : ∀ n, n ∈ x.1.fields.map (·.name) ↔ ∃ f ∈ seen, f.name = n
  bits : ∀ g ∈ x.1.fields, ∀ k, g.bits.testBit k = true ↔ ∃ f ∈ seen, f.name = g.name ∧ f.bits.testBit k = true
  same : x.2 = false → ∀ f ∈ seen, getFieldNum x.1 f.name = f.number

theorem getOrAdd_plain {t : FIS} (h : WF t) (hp : t.store = 0 ∧ t.index = 0 ∧ t.termVector = 0) (n : Name) :
    ∃ t' l, getOrAdd t n = .ok t' ∧ WF t' ∧ (t'.store = 0 ∧ t'.index = 0 ∧ t'.termVector = 0) ∧ t'.fields = t.fields ++ l ∧
      ((n ∈ t.fields.map (·.name) ∧ l = []) ∨ (n ∉ t.fields.map (·.name) ∧ l = [⟨n, boostOne, 0, t.fields.length⟩])) := by
  cases hg : getField t n with
  | some g =>
    have e : getOrAdd t n = .ok t := by unfold getOrAdd; rw [hg]
    refine ⟨t, [], e, h, hp, by simp, Or.inl ⟨?_, rfl⟩⟩
    exact Classical.byContradiction fun hc => by rw [getField_none.2 hc] at hg; cases hg
  | none =>
    have e : getOrAdd t n = .ok { t with fields := t.fields ++ [⟨n, boostOne, 0, t.fields.length⟩] } := by
      unfold getOrAdd
      rw [hg]
      dsimp only
      rw [hp.1, hp.2.1, hp.2.2]
      show addField t ⟨n, boostOne, 0, 0⟩ = _
      unfold addField
      dsimp only
      rw [hg]
      dsimp only
      rw [hp.1, hp.2.1, hp.2.2]
    exact ⟨_, _, e, getOrAdd_wf h e, hp, rfl, Or.inr ⟨getField_none.1 hg, rfl⟩⟩

theorem mergeField_ok {x : FIS × Bool} {seen : List FI} (h : Merged x seen) (fi : FI) : ∃ y, mergeField x fi = .ok y ∧ Merged y (seen ++ [fi]) := by
  obtain ⟨t, l, e1, hw, hp, hl, hcase⟩ := getOrAdd_plain h.wf h.plain fi.name
  have hin : fi.name ∈ t.fields.map (·.name) := by
    rw [hl, List.map_append, List.mem_append]
    rcases hcase with ⟨h1, -⟩ | ⟨-, h2⟩
    · exact Or.inl h1
    · right; rw [h2]; simp
  cases hg : getField t fi.name with
  | none => exact absurd hin (getField_none.1 hg)
  | some g =>
    obtain ⟨hgn, hga⟩ := getField_some hw hg
    obtain ⟨hw', hn', hnm⟩ := set_bits hw hga (g.bits ||| fi.bits)
    refine ⟨({ t with fields := t.fields.set g.number { g with bits := g.bits ||| fi.bits } }, x.2 || fi.number != g.number), ?_, hw', hp, ?_, ?_, ?_⟩
    · unfold mergeField
      rw [e1, Res.ok_bind, hg]
    · intro n
      show n ∈ (t.fields.set _ _).map _ ↔ _
      rw [show (t.fields.set g.number { g with bits := g.bits ||| fi.bits }).map (·.name) = _ from hnm, hl, List.map_append, List.mem_append, h.names n]
      constructor
      · rintro (⟨f, hf, e⟩ | hm)
        · exact ⟨f, List.mem_append_left _ hf, e⟩
        · rcases hcase with ⟨-, h2⟩ | ⟨-, h2⟩
          · rw [h2] at hm; cases hm
          · rw [h2] at hm
            simp at hm
            exact ⟨fi, by simp, hm.symm⟩
      · rintro ⟨f, hf, rfl⟩
        rcases List.mem_append.1 hf with hf | hf
        · exact Or.inl ⟨f, hf, rfl⟩
        · have : f = fi := by simpa using hf
          subst this
          rcases hcase with ⟨h1, -⟩ | ⟨-, h2⟩
          · exact Or.inl ((h.names _).1 h1)
          · right; rw [h2]; simp
    · -- the bits of the fields of `t`
      have hb : ∀ g ∈ t.fields, ∀ k, g.bits.testBit k = true ↔ ∃ f ∈ seen, f.name = g.name ∧ f.bits.testBit k = true := by
        intro g hgm k
        rw [hl] at hgm
        rcases List.mem_append.1 hgm with hgm | hgm
        · exact h.bits g hgm k
        · rcases hcase with ⟨-, h2⟩ | ⟨h1, h2⟩
          · rw [h2] at hgm; cases hgm
          · rw [h2] at hgm
            have : g = ⟨fi.name, boostOne, 0, x.1.fields.length⟩ := by simpa using hgm
            subst this
            refine ⟨fun hc => (by simp at hc), ?_⟩
            rintro ⟨f, hf, e, -⟩
            exact absurd ((h.names _).2 ⟨f, hf, e⟩) h1
      intro g' hg' k
      obtain ⟨j, hj, rfl⟩ := List.getElem_of_mem hg'
      dsimp only at hj ⊢
      rw [List.getElem_set]
      have hj' : j < t.fields.length := by simpa using hj
      split
      · rename_i e
        subst e
        dsimp only
        rw [Nat.testBit_or, Bool.or_eq_true, hb g (List.mem_of_getElem? hga) k]
        constructor
        · rintro (⟨f, hf, e, hk⟩ | hk)
          · exact ⟨f, List.mem_append_left _ hf, e, hk⟩
          · exact ⟨fi, by simp, hgn.symm, hk⟩
        · rintro ⟨f, hf, e, hk⟩
          rcases List.mem_append.1 hf with hf | hf
          · exact Or.inl ⟨f, hf, e, hk⟩
          · have : f = fi := by simpa using hf
            subst this
            exact Or.inr hk
      · rename_i e
        rw [hb _ (List.getElem_mem hj') k]
        constructor
        · rintro ⟨f, hf, e, hk⟩
          exact ⟨f, List.mem_append_left _ hf, e, hk⟩
        · rintro ⟨f, hf, e', hk⟩
          rcases List.mem_append.1 hf with hf | hf
          · exact ⟨f, hf, e', hk⟩
          · have : f = fi := by simpa using hf
            subst this
            -- the field of that name is the one at `g.number`
            have h3 := getField_at hw (List.getElem?_eq_getElem hj')
            rw [← e', hg] at h3
            have h4 := hw.numbers j hj'
            rw [← Option.some.inj h3] at h4
            exact absurd h4 e
    · intro hx f hf
      rw [Bool.or_eq_false_iff] at hx
      rw [getFieldNum_nums, show nums _ = nums t from hn', ← getFieldNum_nums]
      rcases List.mem_append.1 hf with hf | hf
      · have h5 := h.same hx.1 f hf
        rw [getFieldNum_nums] at h5 ⊢
        rw [← h5]
        unfold nums
        rw [hl, List.map_append]
        refine numIn_append ?_
        rw [List.map_map]
        exact (h.names _).2 ⟨f, hf, rfl⟩
      · have : f = fi := by simpa using hf
        subst this
        unfold getFieldNum
        rw [hg]
        have := hx.2
        simp only [bne_eq_false_iff_eq] at this
        simp [this]

theorem mergeFields_ok : ∀ (fs : List FI) {x : FIS × Bool} {seen : List FI}, Merged x seen → ∃ y, mergeFields x fs = .ok y ∧ Merged y (seen ++ fs)
  | [], x, seen, h => ⟨x, rfl, by rwa [List.append_nil]⟩
  | f :: fs, x, seen, h => by
    obtain ⟨y, e1, h1⟩ := mergeField_ok h f
    obtain ⟨z, e2, h2⟩ := mergeFields_ok fs h1
    refine ⟨z, ?_, ?_⟩
    · unfold mergeFields; rw [e1, Res.ok_bind, e2]
    · rwa [List.append_assoc, List.singleton_append] at h2

theorem mergeAll_ok : ∀ (ss : List FIS) {x : FIS × Bool} {seen : List FI}, Merged x seen → ∃ y, mergeAll x ss = .ok y ∧ Merged y (seen ++ ss.flatMap (·.fields))
  | [], x, seen, h => ⟨x, rfl, by simpa using h⟩
  | s :: ss, x, seen, h => by
    obtain ⟨y, e1, h1⟩ := mergeFields_ok s.fields h
    obtain ⟨z, e2, h2⟩ := mergeAll_ok ss h1
    refine ⟨z, ?_, ?_⟩
    · unfold mergeAll; rw [e1, Res.ok_bind, e2]
    · rwa [List.append_assoc] at h2

theorem mrOpen_ok (subs : List FIS) : ∃ x, mergeAll (⟨0, 0, 0, []⟩, false) subs = .ok x ∧ Merged x (subs.flatMap (·.fields)) ∧
    mrOpen subs = .ok (x.1, if x.2 then some (fieldMap x.1 subs) else none) := by
  obtain ⟨x, e, h⟩ := mergeAll_ok subs (x := (⟨0, 0, 0, []⟩, false)) (seen := [])
    ⟨⟨by decide, fun i hi => absurd hi (by simp), by simp⟩, ⟨rfl, rfl, rfl⟩, by simp, by simp, by simp⟩
  refine ⟨x, e, by simpa using h, ?_⟩
  unfold mrOpen
  show (mergeAll (⟨0, 0, 0, []⟩, false) subs >>= _) = _
  rw [e, Res.ok_bind]

end Ferret.MOpen
