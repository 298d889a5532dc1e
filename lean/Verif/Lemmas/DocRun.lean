import Verif.Lemmas.DocText

/-!
Every call on documents (C97).
-/

namespace Ferret.Docs
open Ferret Ferret.Spec

/-- Adding a text to a field. -/
theorem dfAddDataLen_ok {st : St} {W : List Thing} (hr : Rel st W) {f s n : Nat} {name : List Byte} {data : List (Nat × Nat)} {own : Bool} {b : List Byte}
    (hf : W[f]? = some (.field name data own)) (hs : W[s]? = some (.text b)) (hl : data.length < 2 ^ 29) (hn : n ≤ b.length) :
    ∃ h, dfAddDataLen st.heap f s n = .ok h ∧ Rel { st with heap := h } (W.set f (.field name (data ++ [(s, n)]) own)) := by
  obtain ⟨df, h1, h2, h3, h4, h5, k, h6⟩ := hr.field hf
  have hg : getField st.heap f = .ok df := by unfold getField; rw [h1]
  have h6' : df.data = (data.map fun x => (x.1, (x.2 : Int))).map some ++ List.replicate k none := by rw [h6, List.map_map]; rfl
  obtain ⟨m, hm⟩ := store_ok (k := 4) (by omega) (by omega) (s, (n : Int)) h6' h5 (by simpa using hl)
  rw [List.length_map] at hm
  refine ⟨_, ?_, hr.set f (c := .field { df with data := ((data.map fun x => (x.1, (x.2 : Int))) ++ [(s, (n : Int))]).map some ++ List.replicate m none, size := df.size + 1 }) ?_ ?_⟩
  · unfold dfAddDataLen
    rw [hg, Res.ok_bind, h3, hm, Res.ok_bind]
  · refine ⟨h2, by simp [h3], h4, by simp; omega, m, ?_⟩
    simp [List.map_map]
  · refine hr.lens.set f ?_ (by intro b e; cases e)
    intro name' data' own' e x hx
    cases e
    have old : ∀ x ∈ data, x.1 < W.length ∧ ∀ b, W[x.1]? = some (.text b) → x.2 ≤ b.length := hr.lens f name data own hf
    rcases List.mem_append.1 hx with hx | hx
    · exact old x hx
    · simp only [List.mem_singleton] at hx
      subst hx
      refine ⟨(List.getElem?_eq_some_iff.1 hs).1, ?_⟩
      intro b' hb'
      rw [hs] at hb'
      cases hb'
      exact hn

theorem strlen_le (b : List Byte) : (b.takeWhile (fun c => decide (c ≠ 0))).length ≤ b.length := (List.takeWhile_prefix _).length_le

/-- A field has the name of its symbol, and the dictionary finds by name. -/
theorem dict_any {syms : List (List Byte)} (hn : syms.Nodup) {i : Nat} {name : List Byte} (hi : syms[i]? = some name) (dict : List (Nat × Nat)) :
    ∀ (fs : List (List Byte × Nat)), dict.map (fun p => (syms[p.1]?, p.2)) = fs.map (fun p => (some p.1, p.2)) →
      dict.any (fun p => decide (p.1 = i)) = fs.any (fun p => decide (p.1 = name)) ∧
      (dict.find? (fun p => decide (p.1 = i))).map (·.2) = (fs.find? (fun p => decide (p.1 = name))).map (·.2) := by
  induction dict with
  | nil => intro fs h; cases fs with | nil => exact ⟨rfl, rfl⟩ | cons _ _ => simp at h
  | cons p ps ih =>
    intro fs h
    cases fs with
    | nil => simp at h
    | cons q qs =>
      simp only [List.map_cons, List.cons.injEq, Prod.mk.injEq] at h
      obtain ⟨⟨h1, h2⟩, h3⟩ := h
      have hq : decide (p.1 = i) = decide (q.1 = name) := by rw [decide_eq_decide]; exact sym_inj hn h1 hi
      obtain ⟨i1, i2⟩ := ih qs h3
      refine ⟨by simp only [List.any_cons, i1, hq], ?_⟩
      simp only [List.find?_cons, hq]
      cases decide (q.1 = name) with
      | true => simp [h2]
      | false => exact i2

/-- Putting a field into a document. -/
theorem docAddField_ok {st : St} {W : List Thing} (hr : Rel st W) {d f : Nat} {fs : List (List Byte × Nat)} {name : List Byte} {data : List (Nat × Nat)} {own : Bool}
    (hd : W[d]? = some (.doc fs)) (hf : W[f]? = some (.field name data own)) (hl : fs.length < 2 ^ 29) :
    if fs.any (fun p => decide (p.1 = name)) then docAddField st.heap d f = .raise .exception
    else ∃ h, docAddField st.heap d f = .ok h ∧ Rel { st with heap := h } (W.set d (.doc (fs ++ [(name, f)]))) := by
  obtain ⟨doc, h1, h2, h3, h4, k, h5⟩ := hr.doc hd
  obtain ⟨df, g1, g2, -⟩ := hr.field hf
  have hg : getDoc st.heap d = .ok doc := by unfold getDoc; rw [h1]
  have hg' : getField st.heap f = .ok df := by unfold getField; rw [g1]
  have hany := (dict_any hr.nodup g2 doc.dict fs h3).1
  split
  · rename_i ha
    unfold docAddField
    rw [hg, Res.ok_bind, hg', Res.ok_bind, hany, if_pos ha]
  · rename_i ha
    have h5' : doc.fields = (fs.map (·.2)).map some ++ List.replicate k none := by rw [h5, List.map_map]; rfl
    obtain ⟨m, hm⟩ := store_ok (k := 2) (by omega) (by omega) f h5' h4 (by simpa using hl)
    rw [List.length_map] at hm
    refine ⟨_, ?_, hr.set d (c := .doc ⟨doc.dict ++ [(df.name, f)], doc.size + 1, ((fs.map (·.2)) ++ [f]).map some ++ List.replicate m none⟩) ?_ ?_⟩
    · unfold docAddField
      rw [hg, Res.ok_bind, hg', Res.ok_bind, hany, if_neg ha, h2, hm, Res.ok_bind]
    · refine ⟨by simp [h2], ?_, by simp; omega, m, by simp [List.map_map, Function.comp_def]⟩
      rw [List.map_append, List.map_append, h3]
      simp [g2]
    · exact hr.lens.set d (by intro _ _ _ e; cases e) (by intro b e; cases e)

theorem step_ok {st : St} {W W' : List Thing} (hr : Rel st W) {c : DocCall} {o : DocOut} (h : docStep W c = some (o, W')) :
    ∃ st', step st c = .ok (o, st') ∧ Rel st' W' := by
  cases c with
  | text b =>
    cases h
    exact ⟨_, by rw [← hr.len]; rfl, hr.alloc (c := .str b) rfl (hr.lens.append (by intro _ _ _ e; cases e))⟩
  | field name =>
    simp only [docStep] at h
    split at h
    · cases h
    · cases h
      have hi := hr.intern name
      obtain ⟨-, h2, -⟩ := intern_spec hr.nodup name
      refine ⟨_, by rw [← hr.len]; rfl, hi.alloc (c := .field (dfNew (intern st.syms name).2)) ?_ (hr.lens.append (by intro _ _ _ e; cases e; rfl))⟩
      exact ⟨h2, rfl, rfl, by simp [dfNew], 1, rfl⟩
  | own f b =>
    simp only [docStep] at h
    split at h
    · rename_i name data own hw
      cases h
      obtain ⟨df, h1, h2, h3, h4, h5⟩ := hr.field hw
      refine ⟨_, by simp only [step, getField, h1, Res.ok_bind], hr.set f (c := .field { df with destroy := b }) ⟨h2, h3, rfl, h5⟩ ?_⟩
      refine hr.lens.set f ?_ (by intro b e; cases e)
      intro name' data' own' e x hx
      cases e
      exact hr.lens f _ _ _ hw x hx
    · cases h
  | add f s =>
    simp only [docStep] at h
    split at h
    · rename_i name data own b hf hs
      split at h
      · rename_i hl
        cases h
        obtain ⟨h', h1, h2⟩ := dfAddDataLen_ok hr hf hs hl (strlen_le b)
        refine ⟨_, ?_, h2⟩
        have hg : getStr st.heap s = .ok b := by unfold getStr; rw [hr.str hs]
        simp only [step, dfAddData, hg, Res.ok_bind, strlen]
        rw [h1]
        rfl
      · cases h
    · cases h
  | addLen f s len =>
    simp only [docStep] at h
    split at h
    · rename_i name data own b hf hs
      split at h
      · rename_i hl
        cases h
        obtain ⟨hl, h0, h0'⟩ := hl
        obtain ⟨n, rfl⟩ := Int.eq_ofNat_of_zero_le h0
        obtain ⟨h', h1, h2⟩ := dfAddDataLen_ok hr hf hs hl (n := n) (by omega)
        refine ⟨_, ?_, by simpa using h2⟩
        simp only [step, h1, Res.ok_bind]
      · cases h
    · cases h
  | doc =>
    cases h
    refine ⟨_, by rw [← hr.len]; rfl, hr.alloc (c := .doc docNew) ⟨rfl, rfl, by simp [docNew], 8, rfl⟩ (hr.lens.append (by intro _ _ _ e; cases e))⟩
  | put d f =>
    simp only [docStep] at h
    split at h
    · rename_i fs name data own hd hf
      split at h
      · cases h
      · rename_i hl
        have hput := docAddField_ok hr hd hf (by omega)
        split at h
        · rename_i ha
          cases h
          rw [if_pos ha] at hput
          exact ⟨st, by simp only [step, hput], hr⟩
        · rename_i ha
          cases h
          rw [if_neg ha] at hput
          obtain ⟨h', h1, h2⟩ := hput
          exact ⟨_, by simp only [step, h1], h2⟩
    · cases h
  | get d name =>
    simp only [docStep] at h
    split at h
    · rename_i fs hd
      split at h
      · cases h
      · cases h
        have hi := hr.intern name
        obtain ⟨h1, h2, -⟩ := intern_spec hr.nodup name
        obtain ⟨doc, g1, -, g3, -⟩ := hi.doc hd
        have hg : getDoc st.heap d = .ok doc := by unfold getDoc; rw [g1]
        have := (dict_any h1 h2 doc.dict fs g3).2
        refine ⟨_, ?_, hi⟩
        simp only [step, docGetField, hg, Res.ok_bind, this]
        cases fs.find? (fun p => decide (p.1 = name)) <;> rfl
    · cases h
  | showField f =>
    simp only [docStep] at h
    split at h
    · rename_i t ht
      split at h
      · rename_i hl
        cases h
        exact ⟨st, by simp only [step, dfToS_ok hr ht hl, Res.ok_bind], hr⟩
      · cases h
    · cases h
  | showDoc d =>
    simp only [docStep] at h
    split at h
    · rename_i fs hd
      split at h
      · rename_i ts ht
        split at h
        · rename_i hl
          cases h
          exact ⟨st, by simp only [step, docToS_ok hr hd ht hl.1 hl.2, Res.ok_bind], hr⟩
        · cases h
      · cases h
    · cases h
  | dropText s =>
    simp only [docStep] at h
    split at h
    · rename_i b hs
      cases h
      have h1 := hr.str hs
      refine ⟨_, by simp only [step, getStr, h1, Res.ok_bind, release_ok h1 (by simp)]; rfl, hr.set s (by simp [CellRel]) (hr.lens.freed s)⟩
    · cases h
  | dropField f =>
    simp only [docStep, Option.map_eq_some_iff, Prod.mk.injEq] at h
    obtain ⟨W1, h1, rfl, rfl⟩ := h
    obtain ⟨h', h2, h3⟩ := dfDestroy_ok hr h1
    exact ⟨_, by simp only [step, h2, Res.ok_bind], h3⟩
  | dropDoc d =>
    simp only [docStep] at h
    split at h
    · rename_i fs hd
      simp only [Option.map_eq_some_iff, Prod.mk.injEq] at h
      obtain ⟨W1, h1, rfl, rfl⟩ := h
      obtain ⟨h', h2, h3⟩ := docDestroy_ok hr hd h1
      exact ⟨_, by simp only [step, h2, Res.ok_bind], h3⟩
    · cases h

theorem run_ok (cs : List DocCall) : ∀ (st : St) (W W' : List Thing) (os : List DocOut), Rel st W → docRun W cs = some (os, W') →
    ∃ st', run st cs = .ok (os, st') ∧ Rel st' W' := by
  induction cs with
  | nil => intro st W W' os hr h; cases h; exact ⟨st, rfl, hr⟩
  | cons c cs ih =>
    intro st W W' os hr h
    simp only [docRun, Option.bind_eq_some_iff, Option.map_eq_some_iff, Prod.mk.injEq] at h
    obtain ⟨⟨o, W1⟩, h1, ⟨os', W2⟩, h2, rfl, rfl⟩ := h
    obtain ⟨st1, h3, h4⟩ := step_ok hr h1
    obtain ⟨st2, h5, h6⟩ := ih st1 W1 W2 os' h4 h2
    refine ⟨st2, ?_, h6⟩
    simp only [run, h3, Res.ok_bind, h5]

end Ferret.Docs
