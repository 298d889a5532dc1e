import Verif.Lemmas.Snapshot

/-! Lemmas for snapshots: every history keeps the files of the last commit. -/

namespace Ferret.Snap
open Ferret Ferret.Spec Ferret.Names Ferret.Sis Ferret.Dlr Ferret.Props

/-- Segment infos as sessions make them. -/
structure WF (s : SIS) : Prop where
  counter : s.counter < 2 ^ 64
  segs : SegsWF s.segs
  made : ∀ si ∈ s.segs, Made s si.name
  fields : ∀ si ∈ s.segs, si.normGens.length ≤ 2 ^ 31

/-- A session against the last commit. -/
structure SesOK (dels : Bool) (c : SIS) (s : Session) : Prop where
  wf : WF s.sis
  fresh : ∀ n ∈ s.fresh, isSegName n = true ∧ ¬ Made c n
  der : ∀ f, Frozen dels c f → Frozen dels s.sis f

structure Inv (dels : Bool) (w : World) : Prop where
  wf : WF w.disk
  ses : ∀ s, w.mem = some s → SesOK dels w.disk s
  dir : DirInv dels w.disk w.dir
  quiet : w.mem = none → DirInv true w.disk w.dir

theorem made_inj {c : SIS} (hc : c.counter < 2 ^ 64) : ¬ Made c (segNameOf c.counter) := by
  rintro ⟨k, hk, e⟩
  have := segNameOf_inj hc (by omega) e
  omega

/-- The segment infos are the same for the files' names. -/
theorem frozen_congr {dels} {c c' : SIS} (hc : c.counter ≤ c'.counter)
    (hs : ∀ si' ∈ c'.segs, Made c si'.name → ∃ si ∈ c.segs, si.name = si'.name ∧ (dels = true → si.delGen ≤ si'.delGen) ∧
      ∀ f : Nat, (si.normGens[f]?).getD (-1) ≤ (si'.normGens[f]?).getD (-1)) :
    ∀ f, Frozen dels c f → Frozen dels c' f := by
  have hm : ∀ s, Made c s → Made c' s := fun s ⟨k, hk, e⟩ => ⟨k, by omega, e⟩
  intro f hf
  cases f with
  | segments g => exact hf
  | data s e => exact hm _ hf
  | compound s => exact hm _ hf
  | deletions s g =>
    obtain ⟨hd, h1, h2⟩ := hf
    refine ⟨hd, hm _ h1, fun si' hs' e => ?_⟩
    obtain ⟨si, a, b, c, -⟩ := hs si' hs' (e ▸ h1)
    have := h2 si a (b.trans e)
    have := c hd
    omega
  | norms s g f sep =>
    obtain ⟨h1, h2⟩ := hf
    refine ⟨hm _ h1, fun si' hs' e => ?_⟩
    obtain ⟨si, a, b, -, c⟩ := hs si' hs' (e ▸ h1)
    have := h2 si a (b.trans e)
    have := c f
    omega

theorem advance_get (si : SI) (f j : Nat) :
    ((advanceNormGen si f).normGens[j]?).getD (-1) = if j = f then (si.normGens[f]?).getD (-1) + 1 else (si.normGens[j]?).getD (-1) := by
  simp only [advanceNormGen, List.getElem?_modify]
  have hg : ((if f ≥ si.normGens.length then si.normGens ++ List.replicate (f + 1 - si.normGens.length) (-1) else si.normGens : List Int)[j]?) =
      if j < si.normGens.length then si.normGens[j]? else if j ≤ f then some (-1) else none := by
    split
    · rw [List.getElem?_append]
      split
      · rfl
      · rw [List.getElem?_replicate]
        by_cases h : j ≤ f
        · rw [if_pos (by omega), if_pos h]
        · rw [if_neg (by omega), if_neg h]
    · split
      · rfl
      · rw [if_neg (by omega), List.getElem?_eq_none (by omega)]
  rw [hg]
  by_cases hj : j = f
  · subst hj
    simp only [if_true, Nat.le_refl]
    split
    · rename_i h; rw [List.getElem?_eq_getElem h]; rfl
    · rename_i h; rw [List.getElem?_eq_none (by omega)]; rfl
  · simp only [if_neg hj, if_neg (fun e : f = j => hj e.symm)]
    split
    · simp
    · rename_i h
      rw [List.getElem?_eq_none (by omega)]
      split <;> rfl

theorem advance_len {si : SI} {f : Nat} (hl : si.normGens.length ≤ 2 ^ 31) (hf : f < 2 ^ 31) : (advanceNormGen si f).normGens.length ≤ 2 ^ 31 := by
  simp only [advanceNormGen, List.length_modify]
  split
  · rw [List.length_append, List.length_replicate]; omega
  · exact hl

theorem advance_bounds {si : SI} {f : Nat} (hn : ∀ g ∈ si.normGens, (-1 : Int) ≤ g ∧ g < 2 ^ 31) (hf : (si.normGens[f]?).getD (-1) + 1 < 2 ^ 31) :
    ∀ g ∈ (advanceNormGen si f).normGens, (-1 : Int) ≤ g ∧ g < 2 ^ 31 := by
  intro g hg
  obtain ⟨j, hj⟩ := List.getElem?_of_mem hg
  have h := advance_get si f j
  rw [hj, Option.getD_some] at h
  have hb : ∀ j : Nat, (-1 : Int) ≤ (si.normGens[j]?).getD (-1) ∧ (si.normGens[j]?).getD (-1) < 2 ^ 31 := by
    intro j
    cases e : si.normGens[j]? with
    | none => simp
    | some x => exact hn x (List.mem_of_getElem? e)
  split at h
  · have := hb f; omega
  · have := hb j; omega

/-- The segment infos with one segment changed, its name kept. -/
theorem set_ok {dels c} {s : Session} (h : SesOK dels c s) {i : Nat} {si si' : SI} (hsi : s.sis.segs[i]? = some si) (hn : si'.name = si.name)
    (hd : -1 ≤ si'.delGen ∧ si'.delGen < 2 ^ 31) (hdm : dels = true → si.delGen ≤ si'.delGen) (hg : ∀ g ∈ si'.normGens, -1 ≤ g ∧ g < 2 ^ 31)
    (hgm : ∀ f : Nat, (si.normGens[f]?).getD (-1) ≤ (si'.normGens[f]?).getD (-1)) (hlen : si'.normGens.length ≤ 2 ^ 31) : SesOK dels c (setSeg s i si') := by
  have hmem := List.mem_of_getElem? hsi
  have hlt := (List.getElem?_eq_some_iff.1 hsi).1
  have hmap : (s.sis.segs.set i si').map (·.name) = s.sis.segs.map (·.name) := by
    rw [List.map_set, hn]
    apply List.ext_getElem?
    intro j
    rw [List.getElem?_set]
    split
    · rename_i e; subst e
      simp [hlt, (List.getElem?_eq_some_iff.1 hsi).2]
    · rfl
  have hm : ∀ sj ∈ s.sis.segs.set i si', sj = si' ∨ sj ∈ s.sis.segs := fun sj hj => (List.mem_or_eq_of_mem_set hj).symm
  refine ⟨⟨h.wf.counter, ⟨fun sj hj => ?_, ?_, fun sj hj => ?_, fun sj hj => ?_⟩, fun sj hj => ?_, fun sj hj => ?_⟩, h.fresh, fun f hf => ?_⟩
  · rcases hm sj hj with rfl | hj
    · rw [hn]; exact h.wf.segs.name _ hmem
    · exact h.wf.segs.name _ hj
  · show ((s.sis.segs.set i si').map (·.name)).Pairwise _
    rw [hmap]; exact h.wf.segs.distinct
  · rcases hm sj hj with rfl | hj
    · exact hd
    · exact h.wf.segs.del _ hj
  · rcases hm sj hj with rfl | hj
    · exact hg
    · exact h.wf.segs.norms _ hj
  · rcases hm sj hj with rfl | hj
    · obtain ⟨k, hk, e⟩ := h.wf.made _ hmem
      exact ⟨k, hk, by rw [hn, e]⟩
    · exact h.wf.made _ hj
  · rcases hm sj hj with rfl | hj
    · exact hlen
    · exact h.wf.fields _ hj
  · refine frozen_congr (c := s.sis) (c' := (setSeg s i si').sis) (Nat.le_refl _) (fun sj hj _ => ?_) f (h.der f hf)
    rcases hm sj hj with rfl | hj
    · exact ⟨si, hmem, hn.symm, hdm, hgm⟩
    · exact ⟨sj, hj, rfl, fun _ => Int.le_refl _, fun _ => Int.le_refl _⟩

theorem newSeg_ok {dels c} {s : Session} (h : SesOK dels c s) (hb : s.sis.counter + 1 < 2 ^ 64) (d : Int) :
    newSegment s.sis.counter = .ok (segNameOf s.sis.counter) ∧ ∃ sis, Sis.newSeg s.sis d = .ok sis ∧ SesOK dels c ⟨sis, segNameOf s.sis.counter :: s.fresh⟩ := by
  have hk := h.wf.counter
  have e := newSegment_eq hk
  refine ⟨e, { s.sis with counter := (s.sis.counter + 1) % 2 ^ 64, segs := s.sis.segs ++ [siNew (segNameOf s.sis.counter) d] }, ?_, ?_⟩
  · unfold Sis.newSeg; rw [e]; rfl
  · have hcnt : (s.sis.counter + 1) % 2 ^ 64 = s.sis.counter + 1 := Nat.mod_eq_of_lt hb
    rw [hcnt]
    have hmade : ∀ n, Made s.sis n → Made { s.sis with counter := s.sis.counter + 1, segs := s.sis.segs ++ [siNew (segNameOf s.sis.counter) d] } n :=
      fun n ⟨k, hk, e⟩ => ⟨k, Nat.lt_succ_of_lt hk, e⟩
    have hm : ∀ sj ∈ s.sis.segs ++ [siNew (segNameOf s.sis.counter) d], sj ∈ s.sis.segs ∨ sj = siNew (segNameOf s.sis.counter) d := by
      intro sj hj
      rcases List.mem_append.mp hj with h | h
      · exact Or.inl h
      · exact Or.inr (by simpa using h)
    refine ⟨⟨hb, ⟨fun sj hj => ?_, ?_, fun sj hj => ?_, fun sj hj => ?_⟩, fun sj hj => ?_, fun sj hj => ?_⟩, fun n hn => ?_, fun f hf => ?_⟩
    · rcases hm sj hj with hj | rfl
      · exact h.wf.segs.name _ hj
      · exact ⟨isSegName_of _ hk, segNameOf_len _ hk⟩
    · show ((s.sis.segs ++ [siNew (segNameOf s.sis.counter) d]).map (·.name)).Pairwise _
      rw [List.map_append, List.pairwise_append]
      refine ⟨h.wf.segs.distinct, by simp, fun a ha b hb e => ?_⟩
      obtain ⟨sj, hj, rfl⟩ := List.mem_map.1 ha
      simp only [List.map_cons, List.map_nil, List.mem_singleton] at hb
      have hmj := h.wf.made _ hj
      rw [e, hb] at hmj
      exact made_inj hk hmj
    · rcases hm sj hj with hj | rfl
      · exact h.wf.segs.del _ hj
      · simp [siNew]
    · rcases hm sj hj with hj | rfl
      · exact h.wf.segs.norms _ hj
      · simp [siNew]
    · rcases hm sj hj with hj | rfl
      · exact hmade _ (h.wf.made _ hj)
      · exact ⟨s.sis.counter, Nat.lt_succ_self _, rfl⟩
    · rcases hm sj hj with hj | rfl
      · exact h.wf.fields _ hj
      · simp [siNew]
    · rcases List.mem_cons.mp hn with rfl | hn
      · refine ⟨isSegName_of _ hk, fun hmd => ?_⟩
        have : Frozen dels s.sis (.compound (segNameOf s.sis.counter)) := h.der _ hmd
        exact made_inj hk this
      · exact h.fresh n hn
    · refine frozen_congr (c := s.sis) (Nat.le_succ _) (fun sj hj hmd => ?_) f (h.der f hf)
      rcases hm sj hj with hj | rfl
      · exact ⟨sj, hj, rfl, fun _ => Int.le_refl _, fun _ => Int.le_refl _⟩
      · exact absurd hmd (made_inj hk)

/-- Fewer segments. -/
theorem sub_ok {dels c} {s : Session} (h : SesOK dels c s) {sis : SIS} (hc : sis.counter = s.sis.counter) (hs : sis.segs.Sublist s.sis.segs) :
    SesOK dels c { s with sis := sis } := by
  have hm := hs.subset
  refine ⟨⟨by rw [hc]; exact h.wf.counter, ⟨fun sj hj => h.wf.segs.name _ (hm hj), ?_, fun sj hj => h.wf.segs.del _ (hm hj), fun sj hj => h.wf.segs.norms _ (hm hj)⟩, ?_, fun sj hj => h.wf.fields _ (hm hj)⟩, h.fresh, fun f hf => ?_⟩
  · exact List.Pairwise.sublist (hs.map _) h.wf.segs.distinct
  · intro sj hj
    obtain ⟨k, hk, e⟩ := h.wf.made _ (hm hj)
    exact ⟨k, by show k < sis.counter; omega, e⟩
  · refine frozen_congr (c := s.sis) (by show s.sis.counter ≤ sis.counter; omega) (fun sj hj _ => ?_) f (h.der f hf)
    exact ⟨sj, hm hj, rfl, fun _ => Int.le_refl _, fun _ => Int.le_refl _⟩

/-- The same segments, but for the counts. -/
theorem info_ok {dels c} {s : Session} (h : SesOK dels c s) (fis : Fis.FIS) (i : Nat) (d : Int) :
    SesOK dels c { s with sis := { s.sis with fis := fis, segs := s.sis.segs.modify i fun si => { si with docCnt := d } } } := by
  have key : ∀ sj ∈ s.sis.segs.modify i (fun si => { si with docCnt := d }), ∃ si ∈ s.sis.segs, si.name = sj.name ∧ si.delGen = sj.delGen ∧ si.normGens = sj.normGens := by
    intro sj hj
    obtain ⟨j, hj⟩ := List.getElem?_of_mem hj
    rw [List.getElem?_modify] at hj
    obtain ⟨si, e, e'⟩ := Option.map_eq_some_iff.1 hj
    refine ⟨si, List.mem_of_getElem? e, ?_⟩
    split at e' <;> (rw [← e']; exact ⟨rfl, rfl, rfl⟩)
  have hmap : (s.sis.segs.modify i fun si => { si with docCnt := d }).map (·.name) = s.sis.segs.map (·.name) := by
    apply List.ext_getElem?
    intro j
    rw [List.getElem?_map, List.getElem?_modify, List.getElem?_map]
    cases s.sis.segs[j]? with
    | none => rfl
    | some si => simp only [Option.map_some]; split <;> rfl
  refine ⟨⟨h.wf.counter, ⟨fun sj hj => ?_, ?_, fun sj hj => ?_, fun sj hj => ?_⟩, fun sj hj => ?_, fun sj hj => ?_⟩, h.fresh, fun f hf => ?_⟩
  · obtain ⟨si, h1, h2, h3, h4⟩ := key sj hj
    rw [← h2]; exact h.wf.segs.name _ h1
  · show ((s.sis.segs.modify i fun si => { si with docCnt := d }).map (·.name)).Pairwise _
    rw [hmap]; exact h.wf.segs.distinct
  · obtain ⟨si, h1, h2, h3, h4⟩ := key sj hj
    rw [← h3]; exact h.wf.segs.del _ h1
  · obtain ⟨si, h1, h2, h3, h4⟩ := key sj hj
    rw [← h4]; exact h.wf.segs.norms _ h1
  · obtain ⟨si, h1, h2, h3, h4⟩ := key sj hj
    obtain ⟨k, hk, e⟩ := h.wf.made _ h1
    exact ⟨k, hk, by rw [← h2, e]⟩
  · obtain ⟨si, h1, h2, h3, h4⟩ := key sj hj
    rw [← h4]; exact h.wf.fields _ h1
  · refine frozen_congr (c := s.sis) (c' := { s.sis with fis := fis, segs := s.sis.segs.modify i fun si => { si with docCnt := d } }) (Nat.le_refl _) (fun sj hj _ => ?_) f (h.der f hf)
    obtain ⟨si, h1, h2, h3, h4⟩ := key sj hj
    exact ⟨si, h1, h2, fun _ => by rw [h3]; exact Int.le_refl _, fun _ => by rw [h4]; exact Int.le_refl _⟩

theorem frozen_committed {dels} (s : SIS) (f : IndexFile) : Frozen dels (committed s) f ↔ Frozen dels s f := by
  cases f <;> exact Iff.rfl

theorem wf_committed {s : SIS} (h : WF s) : WF (committed s) := ⟨h.counter, h.segs, h.made, h.fields⟩

theorem wf_new (fis : Fis.FIS) (now : Nat) : WF (sisNew fis now) :=
  ⟨by simp [sisNew], ⟨by simp [sisNew], by simp [sisNew], by simp [sisNew], by simp [sisNew]⟩, by simp [sisNew], by simp [sisNew]⟩

theorem not_made_new (fis : Fis.FIS) (now : Nat) (n : Name) : ¬ Made (sisNew fis now) n := by
  rintro ⟨k, hk, -⟩
  simp [sisNew] at hk

theorem not_frozen_new {dels} (fis : Fis.FIS) (now : Nat) (f : IndexFile) : ¬ Frozen dels (sisNew fis now) f := by
  intro h
  obtain ⟨s, -, -, -, hm⟩ := h.made
  exact not_made_new _ _ _ hm

/-- The next file of deletions is not one the last commit may refer to. -/
theorem del_not_frozen {dels c} {s : Session} (h : SesOK dels c s) {si : SI} (hm : si ∈ s.sis.segs) (hb : si.delGen + 1 < 2 ^ 31) {n : Name}
    (hn : okName (fnForGeneration si.name (some [100, 101, 108]) (si.delGen + 1)) = some n) : ¬ FrozenN dels c n := by
  have hw := h.wf.segs
  obtain ⟨hs1, hs2⟩ := hw.name si hm
  have hd := hw.del si hm
  have h0 : (0 : Int) ≤ si.delGen + 1 := by omega
  rw [fnForGeneration_del hs2 h0 hb] at hn
  cases hn
  rintro ⟨f, hv, e, hf⟩
  have hv' : (IndexFile.deletions si.name (si.delGen + 1).toNat).valid = true := by
    simp only [IndexFile.valid, hs1, Bool.true_and, decide_eq_true_eq]; omega
  rw [deletions_name hv' hv hf.ne_segments e] at hf
  have := (h.der _ hf).2.2 si hm rfl
  omega

theorem norm_not_frozen {dels c} {s : Session} (h : SesOK dels c s) {si : SI} (hm : si ∈ s.sis.segs) {fld : Nat} (hfl : fld < 2 ^ 31)
    (hb : (si.normGens[fld]?).getD (-1) + 1 < 2 ^ 31) {n : Name} (hn : okName (normFileName (advanceNormGen si fld) fld) = some n) : ¬ FrozenN dels c n := by
  have hw := h.wf.segs
  obtain ⟨hs1, hs2⟩ := hw.name si hm
  have hget := advance_get si fld fld
  rw [if_pos rfl] at hget
  have hlow : (-1 : Int) ≤ (si.normGens[fld]?).getD (-1) := by
    cases e : si.normGens[fld]? with
    | none => simp
    | some x => exact (hw.norms si hm x (List.mem_of_getElem? e)).1
  unfold normFileName at hn
  cases hg : (advanceNormGen si fld).normGens[fld]? with
  | none => rw [hg] at hn; cases hn
  | some g =>
    rw [hg, Option.getD_some] at hget
    rw [hg] at hn
    have h0 : (0 : Int) ≤ g := by omega
    have h1 : g < 2 ^ 31 := by omega
    simp only [if_neg (show ¬ g < 0 by omega)] at hn
    have hsep : (if (advanceNormGen si fld).compound = true ∧ g > 0 then [115] else [102] : Name) = if decide ((advanceNormGen si fld).compound = true ∧ g > 0) = true then [115] else [102] := by
      by_cases h : (advanceNormGen si fld).compound = true ∧ g > 0 <;> simp [h]
    have hname : (advanceNormGen si fld).name = si.name := rfl
    rw [hsep, hname, fnForGenField_norm hs2 h0 h1 hfl] at hn
    cases hn
    rintro ⟨f, hv, e, hf⟩
    have hv' : (IndexFile.norms si.name g.toNat fld (decide ((advanceNormGen si fld).compound = true ∧ g > 0))).valid = true := by
      simp only [IndexFile.valid, hs1, Bool.true_and, decide_eq_true_eq, Bool.and_eq_true]; omega
    rw [norms_name hv' hv hf.ne_segments e] at hf
    have := (h.der _ hf).2 si hm rfl
    omega

/-! ### Steps -/

/-- The calls of a step, what happens to the last commit, and the session after. -/
theorem calls_ok {dels} {w : World} (hi : Inv dels w) {e : Ev} (he : dels = true → ∀ i, e ≠ .undelete i) {ops d' m'} (h : calls w e = some (ops, d', m')) :
    (∀ op ∈ ops, CallOK dels w.disk op) ∧ (w.mem = none → ∀ op ∈ ops, CallOK true w.disk op) ∧
    (m' = none → w.mem = none ∨ ops = closeAll w.dir.outs) ∧
    ((d' = w.disk ∧ ∀ s, m' = some s → SesOK dels w.disk s) ∨
     (e = .commit ∧ ops = [] ∧ (∀ (h : Nat) x, w.dir.outs[h]? ≠ some (some x)) ∧ WF d' ∧ (∀ f, Frozen dels w.disk f → Frozen dels d' f) ∧ m' = some ⟨d', []⟩) ∨
     (∃ fis now, e = .create fis now ∧ ops = [.clearAll] ∧ d' = sisNew fis now ∧ m' = w.mem)) := by
  have nil : ∀ {dels c}, ∀ op ∈ ([] : List DOp), CallOK dels c op := fun op h => by cases h
  have one : ∀ {dels c} {op : DOp}, CallOK dels c op → ∀ o ∈ [op], CallOK dels c o := fun h o ho => by
    rw [List.mem_singleton.mp ho]; exact h
  cases e with
  | begin =>
    simp only [calls] at h
    split at h
    · cases h
      refine ⟨nil, fun _ => nil, fun h => (by cases h), Or.inl ⟨rfl, fun s e => ?_⟩⟩
      cases e
      exact ⟨hi.wf, fun n hn => (by cases hn), fun f hf => hf⟩
    · cases h
  | stop =>
    cases h
    have hc : ∀ {dels c}, ∀ op ∈ closeAll w.dir.outs, CallOK dels c op := by
      intro dels c op ho
      obtain ⟨p, -, rfl⟩ := List.mem_map.1 ho
      trivial
    exact ⟨hc, fun _ => hc, fun _ => Or.inr rfl, Or.inl ⟨rfl, fun s e => by cases e⟩⟩
  | create fis now =>
    cases h
    exact ⟨one trivial, fun _ => one trivial, fun h => Or.inl h, Or.inr (Or.inr ⟨fis, now, rfl, rfl, rfl, rfl⟩)⟩
  | newSeg d =>
    simp only [calls, Option.bind_eq_some_iff] at h
    obtain ⟨s, hs, h⟩ := h
    split at h
    · rename_i hb
      obtain ⟨e1, sis, e2, h3⟩ := newSeg_ok (hi.ses s hs) hb d
      rw [e1, e2] at h
      cases h
      exact ⟨nil, fun _ => nil, fun h => (by cases h), Or.inl ⟨rfl, fun s' e => by cases e; exact h3⟩⟩
    · cases h
  | out i ext =>
    simp only [calls, Option.bind_eq_some_iff] at h
    obtain ⟨s, hs, si, hsi, h⟩ := h
    split at h
    · rename_i hc
      cases h
      obtain ⟨h1, h2⟩ := (hi.ses s hs).fresh _ (List.contains_iff_mem.mp hc.1)
      refine ⟨one (not_frozen_fresh h1 hc.2 h2), fun hn => absurd hs (by rw [hn]; simp), fun h => (by cases h), Or.inl ⟨rfl, fun s' e => ?_⟩⟩
      cases e; exact hi.ses s hs
    · cases h
  | delOut i =>
    simp only [calls, Option.bind_eq_some_iff] at h
    obtain ⟨s, hs, si, hsi, h⟩ := h
    split at h
    · rename_i hb
      obtain ⟨n, hn, e⟩ := Option.map_eq_some_iff.1 h
      cases e
      have hm := List.mem_of_getElem? hsi
      have hses := hi.ses s hs
      refine ⟨one (del_not_frozen hses hm hb hn), fun hn => absurd hs (by rw [hn]; simp), fun h => (by cases h), Or.inl ⟨rfl, fun s' e => ?_⟩⟩
      cases e
      have := hses.wf.segs.del si hm
      exact set_ok hses hsi rfl ⟨by show -1 ≤ si.delGen + 1; omega, hb⟩ (fun _ => by show si.delGen ≤ si.delGen + 1; omega) (hses.wf.segs.norms si hm) (fun _ => Int.le_refl _) (hses.wf.fields si hm)
    · cases h
  | undelete i =>
    simp only [calls, Option.bind_eq_some_iff, Option.map_eq_some_iff] at h
    obtain ⟨s, hs, si, hsi, e⟩ := h
    cases e
    have hm := List.mem_of_getElem? hsi
    have hses := hi.ses s hs
    refine ⟨nil, fun _ => nil, fun h => (by cases h), Or.inl ⟨rfl, fun s' e => ?_⟩⟩
    cases e
    exact set_ok hses hsi rfl ⟨Int.le_refl _, by show (-1 : Int) < 2 ^ 31; omega⟩ (fun hd => absurd rfl (he hd i)) (hses.wf.segs.norms si hm) (fun _ => Int.le_refl _) (hses.wf.fields si hm)
  | normOut i fld =>
    simp only [calls, Option.bind_eq_some_iff] at h
    obtain ⟨s, hs, si, hsi, h⟩ := h
    split at h
    · rename_i hb
      obtain ⟨n, hn, e⟩ := Option.map_eq_some_iff.1 h
      cases e
      have hm := List.mem_of_getElem? hsi
      have hses := hi.ses s hs
      refine ⟨one (norm_not_frozen hses hm hb.1 hb.2 hn), fun hn => absurd hs (by rw [hn]; simp), fun h => (by cases h), Or.inl ⟨rfl, fun s' e => ?_⟩⟩
      cases e
      refine set_ok hses hsi rfl (hses.wf.segs.del si hm) (fun _ => Int.le_refl _) (advance_bounds (hses.wf.segs.norms si hm) hb.2) (fun j => ?_) (advance_len (hses.wf.fields si hm) hb.1)
      rw [advance_get]
      split
      · rename_i e; subst e; omega
      · exact Int.le_refl _
    · cases h
  | compound i =>
    simp only [calls, Option.bind_eq_some_iff, Option.map_eq_some_iff] at h
    obtain ⟨s, hs, si, hsi, e⟩ := h
    cases e
    have hm := List.mem_of_getElem? hsi
    have hses := hi.ses s hs
    refine ⟨nil, fun _ => nil, fun h => (by cases h), Or.inl ⟨rfl, fun s' e => ?_⟩⟩
    cases e
    exact set_ok hses hsi rfl (hses.wf.segs.del si hm) (fun _ => Int.le_refl _) (hses.wf.segs.norms si hm) (fun _ => Int.le_refl _) (hses.wf.fields si hm)
  | drop i j =>
    simp only [calls, Option.bind_eq_some_iff] at h
    obtain ⟨s, hs, h⟩ := h
    cases hd : delFromTo s.sis i j with
    | ok sis =>
      rw [hd] at h
      cases h
      unfold delFromTo at hd
      split at hd
      · rename_i hij
        cases hd
        refine ⟨nil, fun _ => nil, fun h => (by cases h), Or.inl ⟨rfl, fun s' e => ?_⟩⟩
        cases e
        refine sub_ok (hi.ses s hs) rfl ?_
        show (s.sis.segs.take i ++ s.sis.segs.drop j).Sublist s.sis.segs
        have h2 : (s.sis.segs.take i ++ s.sis.segs.drop i) = s.sis.segs := List.take_append_drop _ _
        refine List.Sublist.trans (List.Sublist.append_left ?_ (s.sis.segs.take i)) (by rw [h2]; exact List.Sublist.refl _)
        have : s.sis.segs.drop j = (s.sis.segs.drop i).drop (j - i) := by rw [List.drop_drop]; congr 1; omega
        rw [this]; exact List.drop_sublist _ _
      · cases hd
    | raise x => rw [hd] at h; cases h
    | ub => rw [hd] at h; cases h
  | setInfo fis i d =>
    simp only [calls, Option.bind_eq_some_iff] at h
    obtain ⟨s, hs, h⟩ := h
    cases h
    exact ⟨nil, fun _ => nil, fun h => (by cases h), Or.inl ⟨rfl, fun s' e => by cases e; exact info_ok (hi.ses s hs) fis i d⟩⟩
  | segOut g =>
    simp only [calls] at h
    split at h
    · rename_i n hn
      cases h
      exact ⟨one (not_frozen_segments g n hn), fun _ => one (not_frozen_segments g n hn), fun h => Or.inl h, Or.inl ⟨rfl, hi.ses⟩⟩
    · cases h
  | genOut =>
    cases h
    exact ⟨one not_frozen_gen, fun _ => one not_frozen_gen, fun h => Or.inl h, Or.inl ⟨rfl, hi.ses⟩⟩
  | write k bs => cases h; exact ⟨one trivial, fun _ => one trivial, fun h => Or.inl h, Or.inl ⟨rfl, hi.ses⟩⟩
  | closeOut k => cases h; exact ⟨one trivial, fun _ => one trivial, fun h => Or.inl h, Or.inl ⟨rfl, hi.ses⟩⟩
  | commit =>
    simp only [calls, Option.bind_eq_some_iff] at h
    obtain ⟨s, hs, h⟩ := h
    split at h
    · rename_i hall
      cases h
      have hses := hi.ses s hs
      refine ⟨nil, fun _ => nil, fun h => (by cases h), Or.inr (Or.inl ⟨rfl, rfl, fun h x e => ?_, wf_committed hses.wf, fun f hf => (frozen_committed _ f).2 (hses.der f hf), rfl⟩)⟩
      have := List.all_eq_true.mp hall _ (List.mem_of_getElem? e)
      cases this
    · cases h
  | remove n => cases h; exact ⟨one trivial, fun _ => one trivial, fun h => Or.inl h, Or.inl ⟨rfl, hi.ses⟩⟩
  | lockTouch n =>
    simp only [calls] at h
    split at h
    · rename_i hn
      cases h
      exact ⟨one (not_frozen_lock n hn), fun _ => one (not_frozen_lock n hn), fun h => Or.inl h, Or.inl ⟨rfl, hi.ses⟩⟩
    · cases h
  | clearLocks => cases h; exact ⟨one trivial, fun _ => one trivial, fun h => Or.inl h, Or.inl ⟨rfl, hi.ses⟩⟩
  | openIn n => cases h; exact ⟨one trivial, fun _ => one trivial, fun h => Or.inl h, Or.inl ⟨rfl, hi.ses⟩⟩
  | read k p l => cases h; exact ⟨one trivial, fun _ => one trivial, fun h => Or.inl h, Or.inl ⟨rfl, hi.ses⟩⟩
  | closeIn k => cases h; exact ⟨one trivial, fun _ => one trivial, fun h => Or.inl h, Or.inl ⟨rfl, hi.ses⟩⟩

theorem drun_closeOuts : ∀ (l : List Nat) {d : DState} {o d'}, drun d (l.map DOp.closeOut) = some (o, d') →
    d'.outs.length = d.outs.length ∧ ∀ h : Nat, (h ∈ l → ∀ x, d'.outs[h]? ≠ some (some x)) ∧ (∀ x, d'.outs[h]? = some (some x) → d.outs[h]? = some (some x)) := by
  intro l
  induction l with
  | nil => intro d o d' h; cases h; exact ⟨rfl, fun h => ⟨fun hm => (by cases hm), fun x e => e⟩⟩
  | cons a as ih =>
    intro d o d' h
    simp only [List.map_cons, drun, Option.bind_eq_some_iff, Option.map_eq_some_iff] at h
    obtain ⟨⟨o1, d1⟩, h1, ⟨o2, d2⟩, h2, e⟩ := h
    cases e
    simp only [dstep] at h1
    split at h1
    · cases h1
      obtain ⟨i1, i2⟩ := ih h2
      refine ⟨by simpa using i1, fun h => ⟨fun hm x e => ?_, fun x e => ?_⟩⟩
      · rcases List.mem_cons.mp hm with rfl | hm
        · have := (i2 h).2 x e
          rw [List.getElem?_set] at this
          rw [if_pos rfl] at this
          split at this <;> cases this
        · exact (i2 h).1 hm x e
      · have := (i2 h).2 x e
        rw [List.getElem?_set] at this
        split at this
        · split at this <;> cases this
        · exact this
    · cases h1

theorem closeAll_closes {d : DState} {o d'} (h : drun d (closeAll d.outs) = some (o, d')) : ∀ (k : Nat) x, d'.outs[k]? ≠ some (some x) := by
  have e : closeAll d.outs = ((d.outs.zipIdx.filter fun p => p.1.isSome).map (·.2)).map DOp.closeOut := by
    rw [List.map_map]; rfl
  rw [e] at h
  obtain ⟨-, h2⟩ := drun_closeOuts _ h
  intro k x hk
  have h3 := (h2 k).2 x hk
  refine (h2 k).1 ?_ x hk
  refine List.mem_map.2 ⟨(some x, k), List.mem_filter.2 ⟨?_, rfl⟩, rfl⟩
  rw [List.mem_zipIdx_iff_getElem?]
  exact h3

/-- Every step keeps the invariant, the files that are not to be written, and (unless an index is
created anew) the names that are not to be written. -/
theorem step_ok {dels} {w : World} (hi : Inv dels w) {e : Ev} (he : dels = true → ∀ i, e ≠ .undelete i) {ops obs w'} (h : step w e = some (ops, obs, w')) :
    Inv dels w' ∧ (∀ i f, Pin dels w.disk w.dir i f → Pin dels w'.disk w'.dir i f) ∧
    ((∀ fis now, e ≠ .create fis now) → ∀ n, FrozenN dels w.disk n → FrozenN dels w'.disk n ∧
      (lookupName w'.dir.names n = lookupName w.dir.names n ∨ lookupName w'.dir.names n = none)) ∧
    drun w.dir ops = some (obs, w'.dir) := by
  simp only [step, Option.bind_eq_some_iff, Option.map_eq_some_iff] at h
  obtain ⟨⟨ops1, d1, m1⟩, hc, ⟨obs1, dir1⟩, hr, e1⟩ := h
  cases e1
  obtain ⟨c1, c2, c3, c4⟩ := calls_ok hi he hc
  simp only at hr
  obtain ⟨r1, r2, r3⟩ := drun_inv hi.dir c1 hr
  have hquiet : m1 = none → d1 = w.disk → DirInv true w.disk dir1 := by
    intro hm _
    rcases c3 hm with hn | hcl
    · exact (drun_inv (hi.quiet hn) (c2 hn) hr).1
    · subst hcl
      refine ⟨r1.nd, r1.ids, fun k i p ho => absurd ho (closeAll_closes hr k (i, p))⟩
  rcases c4 with ⟨rfl, hs⟩ | ⟨rfl, rfl, ho, hwf, hfz, rfl⟩ | ⟨fis, now, rfl, rfl, rfl, rfl⟩
  · exact ⟨⟨hi.wf, hs, r1, fun hm => hquiet hm rfl⟩, r2, fun _ n hn => ⟨hn, r3 n hn⟩, hr⟩
  · cases hr
    refine ⟨⟨hwf, fun s e => ?_, ⟨hi.dir.nd, hi.dir.ids, fun k i p hk => absurd hk (ho k (i, p))⟩, fun hm => (by cases hm)⟩, fun i f hp => ?_, fun _ n hn => ⟨?_, Or.inl rfl⟩, rfl⟩
    · cases e
      exact ⟨hwf, fun n hn => (by cases hn), fun f hf => hf⟩
    · exact ⟨hp.file, fun q hq e => by obtain ⟨f, h1, h2, h3⟩ := hp.names q hq e; exact ⟨f, h1, h2, hfz f h3⟩, hp.outs⟩
    · obtain ⟨f, h1, h2, h3⟩ := hn
      exact ⟨f, h1, h2, hfz f h3⟩
  · cases hr
    refine ⟨⟨wf_new fis now, fun s hs => ?_, ⟨List.Pairwise.nil, fun q hq => by simp at hq, fun k i p hk => ⟨(hi.dir.outs k i p hk).1, fun q hq => by simp at hq⟩⟩, fun _ => ⟨List.Pairwise.nil, fun q hq => by simp at hq, fun k i p hk => ⟨(hi.dir.outs k i p hk).1, fun q hq => by simp at hq⟩⟩⟩, fun i f hp => ?_, fun hne => absurd rfl (hne fis now), rfl⟩
    · have := hi.ses s hs
      exact ⟨this.wf, fun n hn => ⟨(this.fresh n hn).1, not_made_new _ _ _⟩, fun f hf => absurd hf (not_frozen_new _ _ f)⟩
    · exact ⟨hp.file, fun q hq => by simp at hq, hp.outs⟩

theorem run_ok {dels} : ∀ {es : List Ev} {w : World} {ops obs w'}, Inv dels w → (dels = true → ∀ i, Ev.undelete i ∉ es) → run w es = some (ops, obs, w') →
    Inv dels w' ∧ (∀ i f, Pin dels w.disk w.dir i f → Pin dels w'.disk w'.dir i f) ∧
    ((∀ fis now, Ev.create fis now ∉ es) → ∀ n, FrozenN dels w.disk n → FrozenN dels w'.disk n ∧
      (lookupName w'.dir.names n = lookupName w.dir.names n ∨ lookupName w'.dir.names n = none)) ∧
    drun w.dir ops = some (obs, w'.dir) := by
  intro es
  induction es with
  | nil =>
    intro w ops obs w' hi _ h
    cases h
    exact ⟨hi, fun i f hp => hp, fun _ n hn => ⟨hn, Or.inl rfl⟩, rfl⟩
  | cons e es ih =>
    intro w ops obs w' hi he h
    simp only [run, Option.bind_eq_some_iff, Option.map_eq_some_iff] at h
    obtain ⟨⟨o1, b1, w1⟩, h1, ⟨o2, b2, w2⟩, h2, e2⟩ := h
    cases e2
    obtain ⟨s1, s2, s3, s4⟩ := step_ok hi (fun hd i e => he hd i (by simp [e])) h1
    obtain ⟨t1, t2, t3, t4⟩ := ih s1 (fun hd i hm => he hd i (by simp [hm])) h2
    refine ⟨t1, fun i f hp => t2 i f (s2 i f hp), fun hn n hf => ?_, drun_join o1 o2 s4 t4⟩
    obtain ⟨a1, a2⟩ := s3 (fun fis now e => hn fis now (by simp [e])) n hf
    obtain ⟨b1, b2⟩ := t3 (fun fis now hm => hn fis now (by simp [hm])) n a1
    refine ⟨b1, ?_⟩
    rcases b2 with e | e
    · rw [e]; exact a2
    · exact Or.inr e

theorem inv_start (dels : Bool) (fis : Fis.FIS) (now : Nat) : Inv dels (start fis now) := by
  have : ∀ d, DirInv d (sisNew fis now) emptyDir := fun d => ⟨List.Pairwise.nil, fun q hq => (by cases hq), fun h i p ho => by simp [emptyDir] at ho⟩
  exact ⟨wf_new fis now, fun s e => (by cases e), this _, fun _ => this _⟩

/-- With no session, undeleting is over. -/
theorem inv_quiet {w : World} (hi : Inv false w) (hm : w.mem = none) : Inv true w :=
  ⟨hi.wf, fun s e => (by rw [hm] at e; cases e), hi.quiet hm, fun _ => hi.quiet hm⟩

/-! ### What a reader opens -/

theorem norm_frozen {c : SIS} (hw : WF c) {si : SI} (hm : si ∈ c.segs) (i : Nat) {n : Name} (h : normFileName si i = .ok (some n)) : FrozenN false c n := by
  obtain ⟨hs1, hs2⟩ := hw.segs.name si hm
  unfold normFileName at h
  cases hg : si.normGens[i]? with
  | none => rw [hg] at h; cases h
  | some g =>
    rw [hg] at h
    have hb := hw.segs.norms si hm g (List.mem_of_getElem? hg)
    have hi := (List.getElem?_eq_some_iff.1 hg).1
    have hl := hw.fields si hm
    simp only at h
    split at h
    · cases h
    · rename_i h0
      have hsep : (if si.compound = true ∧ g > 0 then [115] else [102] : Name) = if decide (si.compound = true ∧ g > 0) = true then [115] else [102] := by
        by_cases h : si.compound = true ∧ g > 0 <;> simp [h]
      rw [hsep, fnForGenField_norm hs2 (by omega) hb.2 (by omega)] at h
      cases h
      refine ⟨_, ?_, rfl, hw.made si hm, fun sj hj e => ?_⟩
      · simp only [IndexFile.valid, hs1, Bool.true_and, decide_eq_true_eq, Bool.and_eq_true]; omega
      · have e1 := current_of_mem hw.segs.distinct hj
        have e2 := current_of_mem hw.segs.distinct hm
        rw [e, e2] at e1
        cases e1
        rw [hg, Option.getD_some]; omega

theorem normFileName_ok {c : SIS} (hw : WF c) {si : SI} (hm : si ∈ c.segs) {i : Nat} (hi : i < si.normGens.length) : ∃ r, normFileName si i = .ok r := by
  obtain ⟨hs1, hs2⟩ := hw.segs.name si hm
  have hl := hw.fields si hm
  unfold normFileName
  rw [List.getElem?_eq_getElem hi]
  simp only
  split
  · exact ⟨_, rfl⟩
  · rename_i h0
    have hb := hw.segs.norms si hm _ (List.getElem_mem hi)
    have hsep : (if si.compound = true ∧ si.normGens[i] > 0 then [115] else [102] : Name) = if decide (si.compound = true ∧ si.normGens[i] > 0) = true then [115] else [102] := by
      by_cases h : si.compound = true ∧ si.normGens[i] > 0 <;> simp [h]
    rw [hsep, fnForGenField_norm hs2 (by omega) hb.2 (by omega)]
    exact ⟨_, rfl⟩

theorem normStreams_ok {c : SIS} (hw : WF c) {si : SI} (hm : si ∈ c.segs) : ∀ {k : Nat}, k ≤ si.normGens.length →
    ∃ ns, normStreams si k = .ok ns ∧ ∀ n ∈ ns, FrozenN false c n := by
  intro k
  induction k with
  | zero => intro _; exact ⟨[], rfl, fun n h => by cases h⟩
  | succ k ih =>
    intro hk
    obtain ⟨ns, h1, h2⟩ := ih (by omega)
    obtain ⟨r, hr⟩ := normFileName_ok hw hm (show k < si.normGens.length by omega)
    simp only [normStreams, hr, h1, Res.ok_bind]
    cases r with
    | none => exact ⟨ns, rfl, h2⟩
    | some n =>
      refine ⟨_, rfl, fun m hmm => ?_⟩
      split at hmm
      · exact h2 m hmm
      · rcases List.mem_cons.mp hmm with rfl | hmm
        · exact norm_frozen hw hm k hr
        · exact h2 m hmm

theorem segStreams_ok {c : SIS} (hw : WF c) {si : SI} (hm : si ∈ c.segs) : ∃ ns, segStreams si = .ok ns ∧ ∀ n ∈ ns, FrozenN false c n := by
  obtain ⟨ns, h1, h2⟩ := normStreams_ok hw hm (Nat.le_refl _)
  obtain ⟨hs1, hs2⟩ := hw.segs.name si hm
  unfold segStreams
  rw [h1, Res.ok_bind]
  refine ⟨_, rfl, fun n hn => ?_⟩
  rcases List.mem_append.mp hn with hn | hn
  · split at hn
    · rw [List.mem_singleton.mp hn]
      exact ⟨.compound si.name, hs1, rfl, hw.made si hm⟩
    · obtain ⟨e, he, rfl⟩ := List.mem_map.1 hn
      refine ⟨.data si.name e, ?_, rfl, hw.made si hm⟩
      have : ∀ e ∈ ([[102, 100, 116], [102, 100, 120], [116, 102, 120], [116, 105, 120], [116, 105, 115], [102, 114, 113], [112, 114, 120]] : List Name), dataExts.contains e = true := by decide
      simp only [IndexFile.valid, hs1, Bool.true_and]
      exact this e he
  · exact h2 n hn

theorem deletions_frozen {c : SIS} (hw : WF c) {si : SI} (hm : si ∈ c.segs) {n : Name} (h : segDeletions si = some n) : FrozenN true c n := by
  obtain ⟨hs1, hs2⟩ := hw.segs.name si hm
  have hd := hw.segs.del si hm
  unfold segDeletions at h
  split at h
  · cases h
  · rw [fnForGeneration_del hs2 (by omega) hd.2] at h
    cases h
    refine ⟨_, ?_, rfl, rfl, hw.made si hm, fun sj hj e => ?_⟩
    · simp only [IndexFile.valid, hs1, Bool.true_and, decide_eq_true_eq]; omega
    · have e1 := current_of_mem hw.segs.distinct hj
      have e2 := current_of_mem hw.segs.distinct hm
      rw [e, e2] at e1
      cases e1
      omega

/-! ### Streams -/

theorem dstep_ins {d : DState} {op : DOp} {o d'} (hs : dstep d op = some (o, d')) {h : Nat} {x : Option Nat} (hx : d.ins[h]? = some x) (hc : op ≠ .closeIn h) :
    d'.ins[h]? = some x := by
  have hl := (List.getElem?_eq_some_iff.1 hx).1
  cases op with
  | touch n => simp only [dstep] at hs; split at hs <;> (cases hs; exact hx)
  | exist n => cases hs; exact hx
  | remove n => cases hs; exact hx
  | rename a b => simp only [dstep] at hs; split at hs <;> (cases hs; exact hx)
  | count => cases hs; exact hx
  | length n =>
    simp only [dstep] at hs
    split at hs
    · cases hs; exact hx
    · obtain ⟨f, -, e⟩ := Option.map_eq_some_iff.1 hs; cases e; exact hx
  | openOut n => simp only [dstep] at hs; split at hs <;> (cases hs; exact hx)
  | write k bs =>
    simp only [dstep] at hs
    split at hs
    · obtain ⟨f, -, e⟩ := Option.map_eq_some_iff.1 hs; cases e; exact hx
    · cases hs
  | closeOut k => simp only [dstep] at hs; split at hs <;> cases hs; exact hx
  | openIn n =>
    simp only [dstep] at hs
    split at hs
    · cases hs; exact hx
    · cases hs
      simp only
      rw [List.getElem?_append_left hl]; exact hx
  | read k p l =>
    simp only [dstep] at hs
    repeat' split at hs
    all_goals first | cases hs; exact hx | cases hs
  | closeIn k =>
    simp only [dstep] at hs
    split at hs
    · cases hs
      have : k ≠ h := fun e => hc (by rw [e])
      simp only
      rw [List.getElem?_set_ne this]; exact hx
    · cases hs
  | clear => cases hs; exact hx
  | clearLocks => cases hs; exact hx
  | clearAll => cases hs; exact hx

theorem drun_ins : ∀ {ops : List DOp} {d : DState} {o d'}, drun d ops = some (o, d') → ∀ {h : Nat} {x : Option Nat}, d.ins[h]? = some x → DOp.closeIn h ∉ ops →
    d'.ins[h]? = some x := by
  intro ops
  induction ops with
  | nil => intro d o d' h k x hx _; cases h; exact hx
  | cons op ops ih =>
    intro d o d' h k x hx hc
    simp only [drun, Option.bind_eq_some_iff, Option.map_eq_some_iff] at h
    obtain ⟨⟨o1, d1⟩, h1, ⟨o2, d2⟩, h2, e⟩ := h
    cases e
    exact ih h2 (dstep_ins h1 hx (fun e => hc (by simp [e]))) (fun hm => hc (by simp [hm]))

theorem calls_closeIn {w : World} {e : Ev} {ops d' m'} (h : calls w e = some (ops, d', m')) {k : Nat} (hm : DOp.closeIn k ∈ ops) : e = .closeIn k := by
  cases e with
  | closeIn j => cases h; rw [List.mem_singleton] at hm; cases hm; rfl
  | stop => cases h; obtain ⟨p, -, e⟩ := List.mem_map.1 hm; cases e
  | begin => simp only [calls] at h; split at h <;> cases h; cases hm
  | create fis now => cases h; rw [List.mem_singleton] at hm; cases hm
  | newSeg d =>
    simp only [calls, Option.bind_eq_some_iff] at h
    obtain ⟨s, hs, h⟩ := h
    split at h
    · split at h <;> cases h; cases hm
    · cases h
  | out i ext =>
    simp only [calls, Option.bind_eq_some_iff] at h
    obtain ⟨s, hs, si, hsi, h⟩ := h
    split at h <;> cases h
    rw [List.mem_singleton] at hm; cases hm
  | delOut i =>
    simp only [calls, Option.bind_eq_some_iff] at h
    obtain ⟨s, hs, si, hsi, h⟩ := h
    split at h
    · obtain ⟨n, hn, e⟩ := Option.map_eq_some_iff.1 h
      cases e
      rw [List.mem_singleton] at hm; cases hm
    · cases h
  | undelete i =>
    simp only [calls, Option.bind_eq_some_iff, Option.map_eq_some_iff] at h
    obtain ⟨s, hs, si, hsi, e⟩ := h
    cases e; cases hm
  | normOut i fld =>
    simp only [calls, Option.bind_eq_some_iff] at h
    obtain ⟨s, hs, si, hsi, h⟩ := h
    split at h
    · obtain ⟨n, hn, e⟩ := Option.map_eq_some_iff.1 h
      cases e
      rw [List.mem_singleton] at hm; cases hm
    · cases h
  | compound i =>
    simp only [calls, Option.bind_eq_some_iff, Option.map_eq_some_iff] at h
    obtain ⟨s, hs, si, hsi, e⟩ := h
    cases e; cases hm
  | drop i j =>
    simp only [calls, Option.bind_eq_some_iff] at h
    obtain ⟨s, hs, h⟩ := h
    split at h <;> cases h
    cases hm
  | setInfo fis i d =>
    simp only [calls, Option.bind_eq_some_iff] at h
    obtain ⟨s, hs, h⟩ := h
    cases h; cases hm
  | segOut g => simp only [calls] at h; split at h <;> cases h; rw [List.mem_singleton] at hm; cases hm
  | genOut => cases h; rw [List.mem_singleton] at hm; cases hm
  | write k bs => cases h; rw [List.mem_singleton] at hm; cases hm
  | closeOut k => cases h; rw [List.mem_singleton] at hm; cases hm
  | commit =>
    simp only [calls, Option.bind_eq_some_iff] at h
    obtain ⟨s, hs, h⟩ := h
    split at h <;> cases h
    cases hm
  | remove n => cases h; rw [List.mem_singleton] at hm; cases hm
  | lockTouch n => simp only [calls] at h; split at h <;> cases h; rw [List.mem_singleton] at hm; cases hm
  | clearLocks => cases h; rw [List.mem_singleton] at hm; cases hm
  | openIn n => cases h; rw [List.mem_singleton] at hm; cases hm
  | read k p l => cases h; rw [List.mem_singleton] at hm; cases hm

theorem run_closeIn : ∀ {es : List Ev} {w : World} {ops obs w'}, run w es = some (ops, obs, w') → ∀ {k : Nat}, Ev.closeIn k ∉ es → DOp.closeIn k ∉ ops := by
  intro es
  induction es with
  | nil => intro w ops obs w' h k _; cases h; simp
  | cons e es ih =>
    intro w ops obs w' h k hk
    simp only [run, Option.bind_eq_some_iff, Option.map_eq_some_iff] at h
    obtain ⟨⟨o1, b1, w1⟩, h1, ⟨o2, b2, w2⟩, h2, e2⟩ := h
    cases e2
    intro hm
    rcases List.mem_append.mp hm with hm | hm
    · simp only [step, Option.bind_eq_some_iff, Option.map_eq_some_iff] at h1
      obtain ⟨⟨ops1, d1, m1⟩, hc, ⟨obs1, dir1⟩, hr, e1⟩ := h1
      cases e1
      exact hk (by rw [← calls_closeIn hc hm]; simp)
    · exact ih h2 (fun h => hk (by simp [h])) hm

end Ferret.Snap
