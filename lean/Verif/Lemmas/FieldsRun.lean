import Verif.Lemmas.FieldsLazy

namespace Ferret.Fields
open Ferret Ferret.Spec Ferret.Fis Ferret.Expand Ferret.Dict

/-! ### Histories of a segment's writer -/

/-- The term vector of one field of a document: the terms with the positions of their occurrences,
and the offsets by position. -/
structure TvIn where
  field : Name
  terms : List PL
  offs : List (Int × Int)

/-- What happens to a writer: a field is described, or a document is added. -/
inductive Event where
  | field (f : FI)
  | doc (d : Doc) (tvs : List TvIn)

/-- The documents of a history. -/
def docsOf : List Event → List (Doc × List TvIn)
  | [] => []
  | .field _ :: es => docsOf es
  | .doc d tvs :: es => (d, tvs) :: docsOf es

/-- The table of fields after a history: described fields and those of documents. -/
def tableAfter : FIS → List Event → FIS
  | t, [] => t
  | t, .field f :: es => tableAfter (match addField t f with | .ok t' => t' | _ => t) es
  | t, .doc d _ :: es => tableAfter (afterDoc t d) es

/-- The numbers of the fields of term vectors. -/
def resolve (t : FIS) : List TvIn → Res (List TvE)
  | [] => .ok []
  | v :: vs =>
    Res.ofOption (getField t v.field) >>= fun fi =>
    resolve t vs >>= fun r => .ok ((fi.number, v.terms, v.offs) :: r)

/-- The writer through a history. -/
def run (Z : Zip) : FW → List Event → Res FW
  | w, [] => .ok w
  | w, .field f :: es =>
    run Z { w with fis := match addField w.fis f with | .ok t' => t' | _ => w.fis } es
  | w, .doc d tvs :: es =>
    resolve (afterDoc w.fis d) tvs >>= fun r =>
    addDocument Z w d r >>= fun w => run Z w es

/-- A document with term vectors for fields of its own. -/
structure GoodEvent (Z : Zip) (t : FIS) (d : Doc) (tvs : List TvIn) : Prop where
  doc : GoodDoc Z t d
  own : ∀ v ∈ tvs, ∃ f ∈ d, f.name = v.field

theorem resolve_spec {t : FIS} (hw : WF t) : ∀ (tvs : List TvIn), (∀ v ∈ tvs, ∃ fi, getField t v.field = some fi) →
    ∃ r, resolve t tvs = .ok r ∧ (∀ e ∈ r, ∃ fi, byNumber t e.1 = some fi) ∧ r.length = tvs.length ∧
      ∀ (i : Nat) (v : TvIn), tvs[i]? = some v → ∃ fi, getField t v.field = some fi ∧ r[i]? = some (fi.number, v.terms, v.offs) := by
  intro tvs
  induction tvs with
  | nil => intro _; exact ⟨[], rfl, by simp, rfl, by simp⟩
  | cons v vs ih =>
    intro h
    obtain ⟨fi, hfi⟩ := h v (by simp)
    obtain ⟨r, e, h1, h2, h3⟩ := ih (fun x hx => h x (by simp [hx]))
    refine ⟨(fi.number, v.terms, v.offs) :: r, ?_, ?_, by simp [h2], ?_⟩
    · simp only [resolve, hfi, Res.ofOption, Res.ok_bind, e]
    · intro x hx
      rcases List.mem_cons.1 hx with rfl | hx
      · exact ⟨fi, (getField_byNumber hw hfi).1⟩
      · exact h1 x hx
    · intro i x hx
      cases i with
      | zero =>
        simp only [List.getElem?_cons_zero, Option.some.injEq] at hx
        subst hx
        exact ⟨fi, hfi, rfl⟩
      | succ i => exact h3 i x (by simpa using hx)

theorem resolve_within {t t' : FIS} (hwi : Within t t') : ∀ (tvs : List TvIn) (r : List TvE), resolve t tvs = .ok r → resolve t' tvs = .ok r := by
  intro tvs
  induction tvs with
  | nil => intro r h; exact h
  | cons v vs ih =>
    intro r h
    simp only [resolve] at h ⊢
    cases hg : getField t v.field with
    | none => rw [hg] at h; cases h
    | some fi =>
      rw [hg, Res.ofOption, Res.ok_bind, Res.bind_eq_ok] at h
      obtain ⟨q, hq, h⟩ := h
      rw [getField_within hwi hg, Res.ofOption, Res.ok_bind, ih q hq]
      exact h

theorem addField_step {t : FIS} (hw : WF t) (f : FI) :
    WF (match addField t f with | .ok t' => t' | _ => t) ∧ Within t (match addField t f with | .ok t' => t' | _ => t) := by
  cases e : addField t f with
  | ok t' => exact ⟨addField_wf hw e, (addField_within e).1⟩
  | raise _ => exact ⟨hw, Within.refl t⟩
  | ub => exact ⟨hw, Within.refl t⟩

theorem tableAfter_spec : ∀ (es : List Event) (t : FIS), WF t → WF (tableAfter t es) ∧ Within t (tableAfter t es) := by
  intro es
  induction es with
  | nil => intro t h; exact ⟨h, Within.refl t⟩
  | cons e es ih =>
    intro t h
    cases e with
    | field f =>
      obtain ⟨h1, h2⟩ := addField_step h f
      obtain ⟨h3, h4⟩ := ih _ h1
      exact ⟨h3, h2.trans h4⟩
    | doc d tvs =>
      obtain ⟨h1, h2, _, _⟩ := afterDoc_spec d t h
      obtain ⟨h3, h4⟩ := ih _ h1
      exact ⟨h3, h2.trans h4⟩

/-- Fitting in a later table is fitting when written. -/
theorem GoodDoc.earlier {Z : Zip} {t t' : FIS} {d : Doc} (hw : Within t t') (hk : ∀ f ∈ d, ∃ fi, getField t f.name = some fi)
    (h : GoodDoc Z t' d) : GoodDoc Z t d :=
  ⟨h.names, h.few, by have := h.fields; rwa [storedOf_within hw d hk] at this⟩

theorem run_spec {Z : Zip} (hZ : Lawful Z) : ∀ (es : List Event) (w : FW) (done : List (Doc × List TvIn)), WF w.fis →
    w.fdx.length = 12 * done.length →
    (∀ (k : Nat) (d : Doc) (tvs : List TvIn), done[k]? = some (d, tvs) → ∃ r, resolve w.fis tvs = .ok r ∧ Written Z w k d r) →
    (∀ p ∈ docsOf es, GoodEvent Z (tableAfter w.fis es) p.1 p.2) →
    ∃ w', run Z w es = .ok w' ∧ w'.fis = tableAfter w.fis es ∧ w'.fdx.length = 12 * (done ++ docsOf es).length ∧
      ∀ (k : Nat) (d : Doc) (tvs : List TvIn), (done ++ docsOf es)[k]? = some (d, tvs) → ∃ r, resolve w'.fis tvs = .ok r ∧ Written Z w' k d r := by
  intro es
  induction es with
  | nil =>
    intro w done hw hl hd _
    exact ⟨w, rfl, rfl, by simpa [docsOf] using hl, by simpa [docsOf] using hd⟩
  | cons e es ih =>
    intro w done hw hl hd hg
    cases e with
    | field f =>
      obtain ⟨h1, h2⟩ := addField_step hw f
      refine ih { w with fis := match addField w.fis f with | .ok t' => t' | _ => w.fis } done h1 hl ?_ hg
      intro k d tvs hk
      obtain ⟨r, hr, hwr⟩ := hd k d tvs hk
      exact ⟨r, resolve_within h2 _ _ hr, hwr.mono h2 (x := []) (y := []) (by simp) (by simp)⟩
    | doc d tvs =>
      obtain ⟨h1, h2, _, h4⟩ := afterDoc_spec d w.fis hw
      obtain ⟨_, h5⟩ := tableAfter_spec es _ h1
      have hge := hg (d, tvs) (by simp [docsOf])
      have hgd : GoodDoc Z (afterDoc w.fis d) d := GoodDoc.earlier h5 h4 hge.doc
      obtain ⟨r, hr, hrb, _, _⟩ := resolve_spec h1 tvs (by
        intro v hv
        obtain ⟨f, hf, e⟩ := hge.own v hv
        rw [← e]
        exact h4 f hf)
      obtain ⟨w1, e1, e2, e3, e4⟩ := addDocument_spec hZ w hw d r hgd hrb
      have := ih w1 (done ++ [(d, tvs)]) (by rw [e2]; exact h1) (by rw [e4]; simp [beBytes_length]; omega) (by
        intro k d' tvs' hk
        rw [List.getElem?_append] at hk
        split at hk
        · obtain ⟨r', hr', hwr⟩ := hd k d' tvs' hk
          exact ⟨r', by rw [e2]; exact resolve_within h2 _ _ hr', hwr.mono (by rw [e2]; exact h2) e3 e4⟩
        · have hk0 : k - done.length = 0 := by
            rw [List.getElem?_eq_some_iff] at hk
            obtain ⟨hlt, _⟩ := hk
            simp at hlt
            omega
          rw [hk0] at hk
          simp only [List.getElem?_cons_zero, Option.some.injEq, Prod.mk.injEq] at hk
          obtain ⟨rfl, rfl⟩ := hk
          have hkk : k = done.length := by omega
          refine ⟨r, by rw [e2]; exact hr, afterDoc w.fis d, w.fdt.length, [], [], h1, by rw [e2]; exact Within.refl _, h4, hrb, ?_, ?_, ?_, ?_⟩
          · rw [e3]; simp
          · rw [e4, hkk]; simp; omega
          · rw [e3]; simp
          · rw [e4, hkk, ← hl]; simp)
        (by
          intro p hp
          rw [e2]
          exact hg p (by simp [docsOf, hp]))
      obtain ⟨w', g1, g2, g3, g4⟩ := this
      refine ⟨w', ?_, ?_, ?_, ?_⟩
      · simp only [run, hr, Res.ok_bind, e1]
        exact g1
      · rw [g2, e2]; rfl
      · simpa [docsOf] using g3
      · simpa [docsOf] using g4

end Ferret.Fields
