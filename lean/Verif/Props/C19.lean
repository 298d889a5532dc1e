import Verif.Lemmas.FieldsTv
import Verif.Props.C18

/-!
C19: term vectors round-trip. The histories are those of C18; each document comes with the term
vectors of some of its fields: terms, the positions of their occurrences, and offsets.
-/

namespace Ferret.Props
open Ferret Ferret.Spec Ferret.Fis Ferret.Fields

/-- What a reader should show of a vector: each term with its frequency, its positions if the field
stores them, and the offsets if the field stores them (and there is a term). -/
def shownVector (fi : FI) (v : TvIn) : TV :=
  { fieldNum := fi.number
    field := v.field
    terms := v.terms.map fun pl => ⟨pl.term, pl.occs.length, if storePositions fi then some pl.occs else none⟩
    offsets := if storeOffsets fi ∧ v.terms ≠ [] then some v.offs else none }

/-- The vector of one field of a document: that of the field, if the field stores vectors and the
document has one for it. -/
def vectorOf (t : FIS) (tvs : List TvIn) (field : Name) : Option TV :=
  match getField t field with
  | none => none
  | some fi =>
    if storeTermVector fi then (tvs.find? fun v => v.field == field).map (shownVector fi) else none

/-- Vectors that fit: one per field; terms shorter than 255 bytes; positions that are `int`s; offsets
below 2^62. -/
structure GoodVectors (tvs : List TvIn) : Prop where
  one : (tvs.map (·.field)).Nodup
  few : tvs.length < 2 ^ 31
  each : ∀ v ∈ tvs, GoodTv v.terms v.offs

theorem seenTv_shown {fi : FI} {v : TvIn} (h : fi.name = v.field) : seenTv fi v.terms v.offs = shownVector fi v := by
  unfold seenTv shownVector
  rw [h]
  rfl

/-- What is known of each document. -/
theorem vectors_after {Z : Zip} (hZ : Lawful Z) {t0 : FIS} (h0 : WF t0) (es : List Event)
    (hg : ∀ p ∈ docsOf es, GoodEvent Z (tableAfter t0 es) p.1 p.2 ∧ GoodVectors p.2) :
    ∃ w, run Z (fwOpen t0) es = .ok w ∧ w.fis = tableAfter t0 es ∧
      ∀ more : List Event, (tableAfter w.fis more).fields.length < 2 ^ 31 →
      w.fdt.length < 2 ^ 31 → (docsOf es).length * 12 < 2 ^ 31 →
      WF (tableAfter w.fis more) ∧ (frOpen w.fdt w.fdx (tableAfter w.fis more)).size = (docsOf es).length ∧
      ∀ (k : Nat) (d : Doc) (tvs : List TvIn), (docsOf es)[k]? = some (d, tvs) →
        ∃ t r, TvAt (frOpen w.fdt w.fdx (tableAfter w.fis more)) t k r ∧ r.length = tvs.length ∧
          ∀ (i : Nat) (x : TvIn), tvs[i]? = some x → ∃ fi, getField (tableAfter w.fis more) x.field = some fi ∧ r[i]? = some (fi.number, x.terms, x.offs) := by
  obtain ⟨w, e1, e2, e3, e4⟩ := written_after hZ h0 es (fun p hp => (hg p hp).1)
  refine ⟨w, e1, e2, ?_⟩
  intro more hf hl hd
  have hwt : WF w.fis := by rw [e2]; exact (tableAfter_spec es t0 h0).1
  obtain ⟨hT, hwi⟩ := tableAfter_spec more w.fis hwt
  refine ⟨hT, ?_, ?_⟩
  · simp only [frOpen, e3]; omega
  · intro k d tvs hk
    obtain ⟨r, hr, hwr⟩ := e4 k d tvs hk
    have hkl : k < (docsOf es).length := by
      rw [List.getElem?_eq_some_iff] at hk
      exact hk.1
    have hge := hg (d, tvs) (List.mem_of_getElem? hk)
    have hr' := resolve_within hwi tvs r hr
    have hknown : ∀ x ∈ tvs, ∃ fi, getField (tableAfter w.fis more) x.field = some fi := by
      intro x hx
      obtain ⟨f, hfm, hfe⟩ := hge.1.own x hx
      obtain ⟨t, _, _, _, _, b, c, _⟩ := hwr
      obtain ⟨fi, hfi⟩ := c f hfm
      exact ⟨fi, by rw [← hfe]; exact getField_within (b.trans hwi) hfi⟩
    obtain ⟨r2, hr2, _, hlen, hidx⟩ := resolve_spec hT tvs hknown
    rw [hr'] at hr2
    cases hr2
    obtain ⟨t, ht⟩ := tvAt_of_written hwr _ hT hwi hf hl (by omega) (by rw [e3]; omega) (by have : tvs.length < 2 ^ 31 := hge.2.few; omega)
    exact ⟨t, r, ht, hlen, hidx⟩

/-- C19, one field, from any consistent table of fields. -/
theorem vector_wf (Z : Zip) (hZ : Lawful Z) {t0 : FIS} (h0 : WF t0) (es : List Event)
    (hg : ∀ p ∈ docsOf es, GoodEvent Z (tableAfter t0 es) p.1 p.2 ∧ GoodVectors p.2) :
    ∃ w, run Z (fwOpen t0) es = .ok w ∧ w.fis = tableAfter t0 es ∧
      ∀ more : List Event, (tableAfter w.fis more).fields.length < 2 ^ 31 →
      w.fdt.length < 2 ^ 31 → (docsOf es).length * 12 < 2 ^ 31 →
      let fr := frOpen w.fdt w.fdx (tableAfter w.fis more)
      (∀ (k : Nat) (d : Doc) (tvs : List TvIn), (docsOf es)[k]? = some (d, tvs) →
        ∀ field : Name, srTermVector fr k field = .ok (vectorOf fr.fis tvs field)) ∧
      ∀ n : Int, n < 0 ∨ n ≥ (docsOf es).length → ∀ field : Name, srTermVector fr n field = .ok none := by
  obtain ⟨w, e1, e2, e3⟩ := vectors_after hZ h0 es hg
  refine ⟨w, e1, e2, ?_⟩
  intro more hf hl hd fr
  obtain ⟨hT, hsize, hdocs⟩ := e3 more hf hl hd
  refine ⟨?_, ?_⟩
  · intro k d tvs hk field
    obtain ⟨t, r, ht, hlen, hidx⟩ := hdocs k d tvs hk
    have hgv := (hg (d, tvs) (List.mem_of_getElem? hk)).2
    unfold srTermVector vectorOf
    cases hfi : getField fr.fis field with
    | none => rfl
    | some fi =>
      dsimp only
      cases hst : storeTermVector fi with
      | false => rfl
      | true =>
        simp only [if_true]
        obtain ⟨hbn, hname, _⟩ := getField_byNumber hT hfi
        cases hfind : tvs.find? (fun x => x.field == field) with
        | none =>
          rw [Option.map_none]
          refine frGetFieldTv_none ht ?_
          intro e he heq
          obtain ⟨j, hj, hje⟩ := List.getElem_of_mem he
          have hjt : j < tvs.length := by omega
          obtain ⟨fj, hfj, hrj⟩ := hidx j tvs[j] (List.getElem?_eq_getElem hjt)
          rw [List.getElem?_eq_getElem hj, hje] at hrj
          have hen : e.1 = fj.number := by rw [Option.some.injEq] at hrj; rw [hrj]
          obtain ⟨hbj, hnj, _⟩ := getField_byNumber hT hfj
          rw [← hen, heq, hbn] at hbj
          cases hbj
          rw [List.find?_eq_none] at hfind
          have := hfind tvs[j] (List.getElem_mem hjt)
          simp only [beq_iff_eq] at this
          exact this (by rw [← hnj, hname])
        | some x =>
          rw [Option.map_some]
          have hxf : x.field = field := by simpa using List.find?_some hfind
          obtain ⟨j, hj, hje⟩ := List.getElem_of_mem (List.mem_of_find?_eq_some hfind)
          obtain ⟨fj, hfj, hrj⟩ := hidx j x (by rw [List.getElem?_eq_getElem hj, hje])
          rw [hxf] at hfj
          have hfij : fj = fi := by
            have h1 : some fj = some fi := hfj.symm.trans hfi
            cases h1; rfl
          subst hfij
          obtain ⟨hjr, hjre⟩ := List.getElem?_eq_some_iff.1 hrj
          have hsplit : r = r.take j ++ (fj.number, x.terms, x.offs) :: r.drop (j + 1) := by
            have := List.take_append_drop j r
            rw [List.drop_eq_getElem_cons hjr, hjre] at this
            exact this.symm
          rw [hsplit] at ht
          have hB : ∀ b ∈ r.drop (j + 1), b.1 ≠ fj.number := by
            intro b hb heq
            obtain ⟨m, hm, hme⟩ := List.getElem_of_mem hb
            rw [List.getElem_drop] at hme
            have hmr : j + 1 + m < r.length := by rw [List.length_drop] at hm; omega
            have hmt : j + 1 + m < tvs.length := by omega
            obtain ⟨fm, hfm, hrm⟩ := hidx (j + 1 + m) tvs[j + 1 + m] (List.getElem?_eq_getElem hmt)
            rw [List.getElem?_eq_getElem hmr, hme] at hrm
            have hbm : b.1 = fm.number := by rw [Option.some.injEq] at hrm; rw [hrm]
            obtain ⟨hbm2, hnm, _⟩ := getField_byNumber hT hfm
            rw [← hbm, heq, hbn] at hbm2
            cases hbm2
            have l1 : (tvs.map (·.field))[j]? = some field := by simp [List.getElem?_eq_getElem hj, hje, hxf]
            have l2 : (tvs.map (·.field))[j + 1 + m]? = some field := by
              rw [List.getElem?_map, List.getElem?_eq_getElem hmt]
              simp only [Option.map_some, Option.some.injEq]
              rw [← hnm, hname]
            have := (List.getElem?_inj (by simpa using hj) hgv.one).1 (l1.trans l2.symm)
            omega
          obtain ⟨fj', hb', hres⟩ := frGetFieldTv_found ht hB (hgv.each x (List.mem_of_find?_eq_some hfind))
          have : fj' = fj := by
            have h1 : some fj' = some fj := hb'.symm.trans hbn
            cases h1; rfl
          subst this
          rw [← seenTv_shown (hname.trans hxf.symm)]
          exact hres
  · intro n hn field
    unfold srTermVector
    cases getField fr.fis field with
    | none => rfl
    | some fi =>
      dsimp only
      split
      · unfold frGetFieldTv
        have : fr.size = (docsOf es).length := hsize
        rw [if_neg (by omega)]
      · rfl

/-- **C19, one field.** The vector of any field of any document is exactly what was indexed for it:
none if the field is not known, stores no vectors, or the document has none for it. (Terms must be
shorter than 255 bytes.) -/
theorem c19_field_partial (Z : Zip) (hZ : Lawful Z) {s i v : Nat} {t0 : FIS} (h0 : fisNew s i v = .ok t0) (es : List Event)
    (hg : ∀ p ∈ docsOf es, GoodEvent Z (tableAfter t0 es) p.1 p.2 ∧ GoodVectors p.2) :
    ∃ w, run Z (fwOpen t0) es = .ok w ∧ w.fis = tableAfter t0 es ∧
      ∀ more : List Event, (tableAfter w.fis more).fields.length < 2 ^ 31 →
      w.fdt.length < 2 ^ 31 → (docsOf es).length * 12 < 2 ^ 31 →
      let fr := frOpen w.fdt w.fdx (tableAfter w.fis more)
      (∀ (k : Nat) (d : Doc) (tvs : List TvIn), (docsOf es)[k]? = some (d, tvs) →
        ∀ field : Name, srTermVector fr k field = .ok (vectorOf fr.fis tvs field)) ∧
      ∀ n : Int, n < 0 ∨ n ≥ (docsOf es).length → ∀ field : Name, srTermVector fr n field = .ok none :=
  vector_wf Z hZ (fisNew_wf h0).1 es hg

/-- C19, all fields, from any consistent table of fields. -/
theorem vectors_wf (Z : Zip) (hZ : Lawful Z) {t0 : FIS} (h0 : WF t0) (es : List Event)
    (hg : ∀ p ∈ docsOf es, GoodEvent Z (tableAfter t0 es) p.1 p.2 ∧ GoodVectors p.2)
    (hoff : ∀ p ∈ docsOf es, ∀ x ∈ p.2, ∀ fi, getField (tableAfter t0 es) x.field = some fi → storeOffsets fi = true → x.terms ≠ []) :
    ∃ w, run Z (fwOpen t0) es = .ok w ∧ w.fis = tableAfter t0 es ∧
      ∀ more : List Event, (tableAfter w.fis more).fields.length < 2 ^ 31 →
      w.fdt.length < 2 ^ 31 → (docsOf es).length * 12 < 2 ^ 31 →
      let fr := frOpen w.fdt w.fdx (tableAfter w.fis more)
      ∀ (k : Nat) (d : Doc) (tvs : List TvIn), (docsOf es)[k]? = some (d, tvs) →
        frGetTv fr k = .ok (tvs.filterMap fun x => (getField fr.fis x.field).map fun fi => shownVector fi x) ∧
        ∀ x ∈ tvs, ∃ fi, getField fr.fis x.field = some fi := by
  obtain ⟨w, e1, e2, e3⟩ := vectors_after hZ h0 es hg
  obtain ⟨w0, f1, f2, f3, f4⟩ := written_after hZ h0 es (fun p hp => (hg p hp).1)
  rw [e1] at f1
  cases f1
  refine ⟨w, e1, e2, ?_⟩
  intro more hf hl hd fr k d tvs hk
  obtain ⟨hT, hsize, hdocs⟩ := e3 more hf hl hd
  obtain ⟨t, r, ht, hlen, hidx⟩ := hdocs k d tvs hk
  have hgv := (hg (d, tvs) (List.mem_of_getElem? hk)).2
  have hge := (hg (d, tvs) (List.mem_of_getElem? hk)).1
  have hoff' := hoff (d, tvs) (List.mem_of_getElem? hk)
  have hwt : WF w.fis := by rw [e2]; exact (tableAfter_spec es t0 h0).1
  obtain ⟨_, hwi⟩ := tableAfter_spec more w.fis hwt
  have hknown : ∀ x ∈ tvs, ∃ fi, getField w.fis x.field = some fi := by
    intro x hx
    obtain ⟨_, _, hwr⟩ := f4 k d tvs hk
    obtain ⟨f, hfm, hfe⟩ := hge.own x hx
    obtain ⟨t, _, _, _, _, b, c, _⟩ := hwr
    obtain ⟨fi, hfi⟩ := c f hfm
    exact ⟨fi, by rw [← hfe]; exact getField_within b hfi⟩
  have hr : ∀ e ∈ r, ∃ x ∈ tvs, ∃ fi, getField fr.fis x.field = some fi ∧ e = (fi.number, x.terms, x.offs) := by
    intro e he
    obtain ⟨j, hj, hje⟩ := List.getElem_of_mem he
    have hjt : j < tvs.length := by omega
    obtain ⟨fj, hfj, hrj⟩ := hidx j tvs[j] (List.getElem?_eq_getElem hjt)
    rw [List.getElem?_eq_getElem hj, hje] at hrj
    exact ⟨tvs[j], List.getElem_mem hjt, fj, hfj, by rw [Option.some.injEq] at hrj; exact hrj⟩
  have hnd : (r.map (·.1)).Nodup := by
    unfold List.Nodup
    rw [List.pairwise_iff_getElem]
    intro a b ha hb hab heq0
    have heq : (r.map (·.1))[a]? = (r.map (·.1))[b]? := by
      rw [List.getElem?_eq_getElem ha, List.getElem?_eq_getElem hb, heq0]
    rw [List.length_map] at ha hb
    have ha' : a < tvs.length := by omega
    have hb' : b < tvs.length := by omega
    obtain ⟨fa, hfa, hra⟩ := hidx a tvs[a] (List.getElem?_eq_getElem ha')
    obtain ⟨fb, hfb, hrb⟩ := hidx b tvs[b] (List.getElem?_eq_getElem hb')
    rw [List.getElem?_map, List.getElem?_map, hra, hrb] at heq
    simp only [Option.map_some, Option.some.injEq] at heq
    obtain ⟨h1, h2, _⟩ := getField_byNumber hT hfa
    obtain ⟨h3, h4, _⟩ := getField_byNumber hT hfb
    rw [heq, h3] at h1
    cases h1
    have l1 : (tvs.map (·.field))[a]? = some fa.name := by simp [List.getElem?_eq_getElem ha', h2]
    have l2 : (tvs.map (·.field))[b]? = some fa.name := by simp [List.getElem?_eq_getElem hb', h4]
    have := (List.getElem?_inj (by simpa using ha') hgv.one).1 (l1.trans l2.symm)
    omega
  obtain ⟨vs, g1, g2, g3⟩ := frGetTv_spec (fr := fr) hT ht
    (by
      intro e he
      obtain ⟨x, hx, fi, _, rfl⟩ := hr e he
      exact hgv.each x hx)
    (by
      intro e he fi hbn hso
      obtain ⟨x, hx, fj, hfj, rfl⟩ := hr e he
      have hbj := (getField_byNumber hT hfj).1
      have : fj = fi := by
        have h1 : some fj = some fi := hbj.symm.trans hbn
        cases h1; rfl
      subst this
      obtain ⟨fk, hfk⟩ := hknown x hx
      have h2 := getField_within hwi hfk
      have : fk = fj := by
        have h1 : some fk = some fj := h2.symm.trans hfj
        cases h1; rfl
      subst this
      rw [e2] at hfk
      exact hoff' x hx fk hfk hso)
    hnd
  have hall : ∀ x ∈ tvs, ∃ fi, getField fr.fis x.field = some fi := by
    intro x hx
    obtain ⟨fi, hfi⟩ := hknown x hx
    exact ⟨fi, getField_within hwi hfi⟩
  refine ⟨?_, hall⟩
  rw [g1]
  congr 1
  -- both lists agree at every place
  have key : ∀ (tvs : List TvIn) (vs : List TV), vs.length = tvs.length →
      (∀ (j : Nat) (x : TvIn), tvs[j]? = some x → ∃ fi, getField fr.fis x.field = some fi ∧ vs[j]? = some (shownVector fi x)) →
      vs = tvs.filterMap fun x => (getField fr.fis x.field).map fun fi => shownVector fi x := by
    intro tvs
    induction tvs with
    | nil => intro vs h _; exact List.eq_nil_of_length_eq_zero h
    | cons x tvs ih =>
      intro vs h hj
      cases vs with
      | nil => simp at h
      | cons y vs =>
        obtain ⟨fi, hfi, hy⟩ := hj 0 x (by simp)
        rw [List.filterMap_cons_some (b := shownVector fi x) (by rw [hfi]; rfl)]
        simp only [List.getElem?_cons_zero, Option.some.injEq] at hy
        rw [hy, ih vs (by simpa using h) (fun j z hz => by simpa using hj (j + 1) z (by simpa using hz))]
  refine key tvs vs (by omega) ?_
  intro j x hx
  obtain ⟨fi, hfi, hrj⟩ := hidx j x hx
  obtain ⟨hbn, hname, _⟩ := getField_byNumber hT hfi
  refine ⟨fi, hfi, ?_⟩
  rw [g3 j _ fi hrj hbn, seenTv_shown hname]

/-- **C19, all fields.** All vectors of a document are those indexed for it, in the order of its
fields, provided no field that stores offsets is without terms. -/
theorem c19_all_partial (Z : Zip) (hZ : Lawful Z) {s i v : Nat} {t0 : FIS} (h0 : fisNew s i v = .ok t0) (es : List Event)
    (hg : ∀ p ∈ docsOf es, GoodEvent Z (tableAfter t0 es) p.1 p.2 ∧ GoodVectors p.2)
    (hoff : ∀ p ∈ docsOf es, ∀ x ∈ p.2, ∀ fi, getField (tableAfter t0 es) x.field = some fi → storeOffsets fi = true → x.terms ≠ []) :
    ∃ w, run Z (fwOpen t0) es = .ok w ∧ w.fis = tableAfter t0 es ∧
      ∀ more : List Event, (tableAfter w.fis more).fields.length < 2 ^ 31 →
      w.fdt.length < 2 ^ 31 → (docsOf es).length * 12 < 2 ^ 31 →
      let fr := frOpen w.fdt w.fdx (tableAfter w.fis more)
      ∀ (k : Nat) (d : Doc) (tvs : List TvIn), (docsOf es)[k]? = some (d, tvs) →
        frGetTv fr k = .ok (tvs.filterMap fun x => (getField fr.fis x.field).map fun fi => shownVector fi x) ∧
        ∀ x ∈ tvs, ∃ fi, getField fr.fis x.field = some fi :=
  vectors_wf Z hZ (fisNew_wf h0).1 es hg hoff

/-! ### A case that meets the hypotheses -/

/-- Two documents with vectors: a field with positions and offsets, one with frequencies only. -/
def tvEvents : List Event :=
  [.field ⟨[112], boostOne, 4 ||| 8 ||| 32 ||| 64 ||| 128, 0⟩,
   .field ⟨[102], boostOne, 4 ||| 8 ||| 32, 0⟩,
   .doc [⟨[112], [[97, 32, 98, 32, 97]]⟩, ⟨[102], [[120]]⟩]
     [⟨[112], [⟨[97], [0, 2]⟩, ⟨[97, 98], [1]⟩], [(0, 1), (2, 4), (5, 6)]⟩, ⟨[102], [⟨[120], [-1]⟩], []⟩],
   .doc [⟨[102], [[120]]⟩] [⟨[102], [⟨[120], [0, 7]⟩], []⟩]]

theorem tvEvents_good : ∀ p ∈ docsOf tvEvents, GoodEvent plusOne (tableAfter sampleTable tvEvents) p.1 p.2 ∧ GoodVectors p.2 := by
  have hst : ∀ p ∈ docsOf tvEvents, storedOf (tableAfter sampleTable tvEvents) p.1 = [] := by decide
  intro p hp
  have h0 := hst p hp
  refine ⟨⟨⟨?_, ?_, by rw [h0]; simp⟩, ?_⟩, ?_⟩
  · revert p; decide
  · revert p; decide
  · revert p; decide
  · refine ⟨by clear h0 hst; revert p; decide, by clear h0 hst; revert p; decide, ?_⟩
    intro v hv
    refine ⟨by clear h0 hst; revert v; revert p; decide, ?_, by clear h0 hst; revert v; revert p; decide, ?_⟩
    · intro pl hpl
      refine ⟨by clear h0 hst; revert pl; revert v; revert p; decide, by clear h0 hst; revert pl; revert v; revert p; decide, ?_⟩
      unfold IsInt
      clear h0 hst; revert pl; revert v; revert p; decide
    · unfold GoodOff
      clear h0 hst; revert v; revert p; decide

example : ∀ p ∈ docsOf tvEvents, ∀ x ∈ p.2, ∀ fi, getField (tableAfter sampleTable tvEvents) x.field = some fi → storeOffsets fi = true → x.terms ≠ [] := by
  intro p hp x hx fi hfi _
  clear hfi
  revert x; revert p; decide

example : (run plusOne (fwOpen sampleTable) tvEvents >>= fun w => srTermVector (frOpen w.fdt w.fdx w.fis) 0 [112]) =
    .ok (some ⟨0, [112], [⟨[97], 2, some [0, 2]⟩, ⟨[97, 98], 1, some [1]⟩], some [(0, 1), (2, 4), (5, 6)]⟩) := by decide +kernel

/-! ### Where the code does not do it -/

/-- A field that stores offsets and has no terms: its (empty) list of offsets is written but not read
back, so when all vectors of the document are read the next one comes out empty, although it has a
term. -/
theorem c19_all_wrong :
    (run plusOne (fwOpen sampleTable)
      [.field ⟨[112], boostOne, 4 ||| 8 ||| 32 ||| 128, 0⟩,
       .field ⟨[102], boostOne, 4 ||| 8 ||| 32, 0⟩,
       .doc [⟨[112], [[]]⟩, ⟨[102], [[120]]⟩] [⟨[112], [], []⟩, ⟨[102], [⟨[120], [0]⟩], []⟩]] >>= fun w =>
     frGetTv (frOpen w.fdt w.fdx w.fis) 0) = .ok [⟨0, [112], [], none⟩, ⟨1, [102], [], none⟩] ∧
    vectorOf ⟨1, 3, 0, [⟨[112], boostOne, 4 ||| 8 ||| 32 ||| 128, 0⟩, ⟨[102], boostOne, 4 ||| 8 ||| 32, 1⟩]⟩
      [⟨[112], [], []⟩, ⟨[102], [⟨[120], [0]⟩], []⟩] [102] = some ⟨1, [102], [⟨[120], 1, none⟩], none⟩ := by decide +kernel

/-- A term of 255 bytes (an untokenized field may have one) is written, and read into a buffer of 255
bytes with a zero after it. -/
theorem c19_long_term_ub :
    (run plusOne (fwOpen sampleTable)
      [.field ⟨[112], boostOne, 4 ||| 32, 0⟩,
       .doc [⟨[112], [List.replicate 255 97]⟩] [⟨[112], [⟨List.replicate 255 97, [0]⟩], []⟩]] >>= fun w =>
     srTermVector (frOpen w.fdt w.fdx w.fis) 0 [112]) = .ub := by decide +kernel

#print axioms c19_field_partial
#print axioms c19_all_partial
#print axioms c19_all_wrong
#print axioms c19_long_term_ub
end Ferret.Props
