import Verif.Model.Fields
import Verif.Lemmas.FieldInfos
import Verif.Lemmas.TermDict

namespace Ferret.Fields
open Ferret Ferret.Spec Ferret.Fis Ferret.Expand Ferret.Dict

/-! ### Tables that grow -/

/-- Every field of `t` is in `t'`, with the same number. -/
def Within (t t' : FIS) : Prop := t.fields <+: t'.fields

theorem Within.refl (t : FIS) : Within t t := List.prefix_refl _

theorem Within.trans {a b c : FIS} (h : Within a b) (h' : Within b c) : Within a c := List.IsPrefix.trans h h'

theorem getField_within {t t' : FIS} (h : Within t t') {n : Name} {fi : FI} (hf : getField t n = some fi) :
    getField t' n = some fi := by
  obtain ⟨r, hr⟩ := h
  unfold getField at hf ⊢
  rw [← hr, List.find?_append, hf]
  rfl

theorem getField_byNumber {t : FIS} (hw : WF t) {n : Name} {fi : FI} (hf : getField t n = some fi) :
    byNumber t fi.number = some fi ∧ fi.name = n ∧ fi.number < t.fields.length := by
  unfold getField at hf
  have hm := List.mem_of_find?_eq_some hf
  have hn := List.find?_some hf
  obtain ⟨i, hi, e⟩ := List.getElem_of_mem hm
  have := hw.numbers i hi
  rw [e] at this
  refine ⟨?_, by simpa using hn, by omega⟩
  unfold byNumber
  rw [this, List.getElem?_eq_getElem hi, e]

theorem byNumber_within {t t' : FIS} (h : Within t t') {k : Nat} {fi : FI} (hf : byNumber t k = some fi) :
    byNumber t' k = some fi := by
  obtain ⟨r, hr⟩ := h
  unfold byNumber at hf ⊢
  rw [← hr]
  rw [List.getElem?_eq_some_iff] at hf
  obtain ⟨hlt, e⟩ := hf
  rw [List.getElem?_append_left hlt, List.getElem?_eq_getElem hlt, e]

theorem addField_within {t t' : FIS} {f : FI} (e : addField t f = .ok t') :
    Within t t' ∧ t'.fields.length = t.fields.length + 1 ∧ ∃ fi, getField t' f.name = some fi := by
  unfold addField at e
  cases hg : getField t f.name with
  | some g => rw [hg] at e; cases e
  | none =>
    rw [hg] at e
    cases e
    refine ⟨⟨_, rfl⟩, by simp, { f with number := t.fields.length }, ?_⟩
    unfold getField at hg ⊢
    simp only [List.find?_append, hg, Option.none_or]
    simp

/-- Using a field never fails; the table grows by at most one. -/
theorem getOrAdd_spec {t : FIS} (hw : WF t) (n : Name) :
    ∃ t', getOrAdd t n = .ok t' ∧ WF t' ∧ Within t t' ∧ t'.fields.length ≤ t.fields.length + 1 ∧
      ∃ fi, getField t' n = some fi := by
  cases hg : getField t n with
  | some g =>
    have e : getOrAdd t n = .ok t := by unfold getOrAdd; rw [hg]
    exact ⟨t, e, hw, Within.refl t, by omega, g, hg⟩
  | none =>
    have hp := hw.params
    obtain ⟨f, hf, hfn⟩ : ∃ f, fiNew n t.store t.index t.termVector = .ok f ∧ f.name = n := by
      unfold fiNew checkParams
      rw [if_neg hp]
      exact ⟨_, rfl, rfl⟩
    have e : getOrAdd t n = addField t f := by
      unfold getOrAdd
      rw [hg, hf, Res.ok_bind]
    obtain ⟨t', ht'⟩ : ∃ t', addField t f = .ok t' := by
      unfold addField
      rw [hfn, hg]
      exact ⟨_, rfl⟩
    obtain ⟨h1, h2, fi, h3⟩ := addField_within ht'
    rw [hfn] at h3
    exact ⟨t', by rw [e, ht'], addField_wf hw ht', h1, by omega, fi, h3⟩

/-! ### Writing documents -/

/-- The fields of a document that are stored, with their numbers. -/
def storedOf (t : FIS) (doc : Doc) : List (FI × DocF) :=
  doc.filterMap fun f => match getField t f.name with
    | some fi => if isStored fi then some (fi, f) else none
    | none => none

theorem storedOf_cons {t : FIS} {f : DocF} {doc : Doc} {fi : FI} (h : getField t f.name = some fi) :
    storedOf t (f :: doc) = (if isStored fi then [(fi, f)] else []) ++ storedOf t doc := by
  unfold storedOf
  cases hs : isStored fi with
  | true =>
    rw [List.filterMap_cons_some (b := (fi, f)) (by simp only [h, hs, if_true])]
    rfl
  | false =>
    rw [List.filterMap_cons_none (by simp only [h, hs, Bool.false_eq_true, if_false])]
    rfl

theorem storedOf_within {t t' : FIS} (h : Within t t') : ∀ (doc : Doc), (∀ f ∈ doc, ∃ fi, getField t f.name = some fi) →
    storedOf t' doc = storedOf t doc := by
  intro doc
  induction doc with
  | nil => intro _; rfl
  | cons f doc ih =>
    intro hd
    obtain ⟨fi, hfi⟩ := hd f (by simp)
    rw [storedOf_cons hfi, storedOf_cons (getField_within h hfi), ih (fun g hg => hd g (by simp [hg]))]

/-- The table after a document: its fields are used one after the other. -/
def afterDoc (t : FIS) : Doc → FIS
  | [] => t
  | f :: doc => match getOrAdd t f.name with
    | .ok t' => afterDoc t' doc
    | _ => t

theorem afterDoc_spec : ∀ (doc : Doc) (t : FIS), WF t → WF (afterDoc t doc) ∧ Within t (afterDoc t doc) ∧
    (afterDoc t doc).fields.length ≤ t.fields.length + doc.length ∧
    ∀ f ∈ doc, ∃ fi, getField (afterDoc t doc) f.name = some fi := by
  intro doc
  induction doc with
  | nil => intro t hw; exact ⟨hw, Within.refl t, by simp [afterDoc], by simp⟩
  | cons f doc ih =>
    intro t hw
    obtain ⟨t', h1, h2, h3, h4, fi, h5⟩ := getOrAdd_spec hw f.name
    obtain ⟨g1, g2, g3, g4⟩ := ih t' h2
    simp only [afterDoc, h1]
    refine ⟨g1, h3.trans g2, by simp only [List.length_cons]; omega, ?_⟩
    intro g hg
    rcases List.mem_cons.1 hg with rfl | hg
    · exact ⟨fi, getField_within g2 h5⟩
    · exact g4 g hg

theorem countStored_spec : ∀ (doc : Doc) (t : FIS), WF t →
    countStored t doc = .ok (afterDoc t doc, (storedOf (afterDoc t doc) doc).length) := by
  intro doc
  induction doc with
  | nil => intro t _; rfl
  | cons f doc ih =>
    intro t hw
    obtain ⟨t', h1, h2, h3, h4, fi, h5⟩ := getOrAdd_spec hw f.name
    obtain ⟨g1, g2, g3, g4⟩ := afterDoc_spec doc t' h2
    simp only [countStored, h1, Res.ok_bind, h5, Res.ofOption, ih t' h2, afterDoc]
    rw [storedOf_cons (getField_within g2 h5)]
    cases isStored fi <;> simp <;> omega

/-- The bytes of one datum in the buffer. -/
def piece (Z : Zip) (fi : FI) (d : List Byte) : List Byte := if isCompressed fi then Z.zip d else d ++ [32]

/-- What the compression library must do. -/
def Lawful (Z : Zip) : Prop := ∀ d, Z.unzip (Z.zip d) = some d ∧ Z.zip d ≠ []

/-- A datum that fits: the code's buffers for compressed data, an `int` for others. -/
def GoodData (Z : Zip) (fi : FI) (d : List Byte) : Prop :=
  if isCompressed fi then d.length < zipBuffer ∧ (Z.zip d).length < zipBuffer else d.length < 2 ^ 31 - 1

theorem piece_length {Z : Zip} (hZ : Lawful Z) (fi : FI) (d : List Byte) : 0 < (piece Z fi d).length := by
  unfold piece
  split
  · exact List.length_pos_iff.2 (hZ d).2
  · simp

theorem piece_small {Z : Zip} {fi : FI} {d : List Byte} (h : GoodData Z fi d) : (piece Z fi d).length ≤ 2 ^ 31 - 1 := by
  unfold GoodData zipBuffer at h
  unfold piece
  split at h
  · rename_i hc; rw [if_pos hc]; omega
  · rename_i hc; rw [if_neg hc]; simp; omega

theorem toU_nat (k n : Nat) (h : n < 256 ^ k) : toU k (n : Int) = n := by
  unfold toU
  rw [Int.emod_eq_of_lt (by omega) (by omega)]
  rfl

theorem writeData_spec {Z : Zip} (hZ : Lawful Z) (fi : FI) : ∀ (ds : List (List Byte)), (∀ d ∈ ds, GoodData Z fi d) →
    writeData Z (isCompressed fi) ds =
      .ok ((ds.map fun d => vint ((piece Z fi d).length - 1)).flatten, (ds.map (piece Z fi)).flatten) := by
  intro ds
  induction ds with
  | nil => intro _; rfl
  | cons d ds ih =>
    intro h
    have hd := h d (by simp)
    have hl := piece_length hZ fi d
    have hs := piece_small hd
    simp only [writeData, ih (fun x hx => h x (by simp [hx]))]
    cases hc : isCompressed fi with
    | true =>
      have e : piece Z fi d = Z.zip d := by unfold piece; rw [if_pos hc]
      unfold GoodData at hd
      rw [if_pos hc] at hd
      simp only [if_true, writeZipped]
      rw [if_pos hd.2]
      simp only [Res.ok_bind, List.map_cons, List.flatten_cons]
      rw [e] at hl hs ⊢
      have : ((Z.zip d).length : Int) - 1 = (((Z.zip d).length - 1 : Nat) : Int) := by omega
      rw [this, toU_nat _ _ (by omega)]
    | false =>
      have e : piece Z fi d = d ++ [32] := by unfold piece; rw [hc]; rfl
      simp only [Bool.false_eq_true, if_false, Res.ok_bind, List.map_cons, List.flatten_cons]
      rw [e]
      simp

/-- A field that fits. -/
def GoodField (Z : Zip) (fi : FI) (f : DocF) : Prop :=
  f.data.length < 2 ^ 31 ∧ ∀ d ∈ f.data, GoodData Z fi d

/-- What describes one field. -/
def headOf (Z : Zip) (s : FI × DocF) : List Byte :=
  vint s.1.number ++ (vint s.2.data.length ++ (s.2.data.map fun d => vint ((piece Z s.1 d).length - 1)).flatten)

/-- The data of one field. -/
def bodyOf (Z : Zip) (s : FI × DocF) : List Byte := (s.2.data.map (piece Z s.1)).flatten

theorem writeFields_spec {Z : Zip} (hZ : Lawful Z) (t : FIS) : ∀ (doc : Doc), (∀ f ∈ doc, ∃ fi, getField t f.name = some fi) →
    (∀ s ∈ storedOf t doc, GoodField Z s.1 s.2) →
    writeFields Z t doc = .ok (((storedOf t doc).map (headOf Z)).flatten, ((storedOf t doc).map (bodyOf Z)).flatten) := by
  intro doc
  induction doc with
  | nil => intro _ _; rfl
  | cons f doc ih =>
    intro hd hg
    obtain ⟨fi, hfi⟩ := hd f (by simp)
    rw [storedOf_cons hfi] at hg ⊢
    simp only [writeFields, hfi, Res.ofOption, Res.ok_bind]
    rw [ih (fun g h => hd g (by simp [h])) (fun s h => hg s (by simp [h]))]
    cases hs : isStored fi with
    | true =>
      have := hg (fi, f) (by simp [hs])
      rw [if_pos rfl, writeData_spec hZ fi f.data this.2]
      simp [headOf, bodyOf]
    | false => simp

/-! ### Reading documents -/

theorem rdInt_vint (n : Nat) (h : n < 2 ^ 31) (rest : List Byte) : rdInt (vint n ++ rest) = .ok (n, rest) := by
  unfold rdInt
  rw [rdVint_vint n (by omega), Res.ok_bind, if_pos h]

theorem rdMany_rdInt : ∀ (ns : List Nat) (rest : List Byte), (∀ n ∈ ns, n < 2 ^ 31) →
    rdMany rdInt ns.length ((ns.map vint).flatten ++ rest) = .ok (ns, rest) := by
  intro ns
  induction ns with
  | nil => intro rest _; rfl
  | cons n ns ih =>
    intro rest h
    simp only [List.length_cons, rdMany, List.map_cons, List.flatten_cons, List.append_assoc]
    rw [rdInt_vint n (h n (by simp)), Res.ok_bind, ih rest (fun m hm => h m (by simp [hm])), Res.ok_bind]

/-- The lengths as they are in the file. -/
def lensOf (Z : Zip) (s : FI × DocF) : List Nat := s.2.data.map fun d => (piece Z s.1 d).length - 1

theorem readHeads_spec {Z : Zip} (t : FIS) (hn : t.fields.length < 2 ^ 31) (hwf : WF t) :
    ∀ (ss : List (FI × DocF)) (acc : List (FI × List Nat)) (rest : List Byte),
    (∀ s ∈ ss, byNumber t s.1.number = some s.1 ∧ GoodField Z s.1 s.2) →
    (ss.map (fun s => s.1.name)).Nodup → (∀ s ∈ ss, ∀ a ∈ acc, a.1.name ≠ s.1.name) →
    readHeads t ss.length acc ((ss.map (headOf Z)).flatten ++ rest) =
      .ok (acc ++ ss.map (fun s => (s.1, lensOf Z s)), rest) := by
  intro ss
  induction ss with
  | nil => intro acc rest _ _ _; simp [readHeads]
  | cons s ss ih =>
    intro acc rest h hnd hacc
    obtain ⟨hb, hg⟩ := h s (by simp)
    have hlt : s.1.number < t.fields.length := by
      unfold byNumber at hb
      rw [List.getElem?_eq_some_iff] at hb
      exact hb.1
    have hnd2 := List.nodup_cons.1 (show (s.1.name :: ss.map (fun s => s.1.name)).Nodup from hnd)
    simp only [List.length_cons, readHeads, List.map_cons, List.flatten_cons]
    rw [show headOf Z s ++ (ss.map (headOf Z)).flatten ++ rest =
      vint s.1.number ++ (vint s.2.data.length ++ (((lensOf Z s).map vint).flatten ++ ((ss.map (headOf Z)).flatten ++ rest))) by
        simp [headOf, lensOf, List.append_assoc, Function.comp_def]]
    rw [rdInt_vint _ (by omega), Res.ok_bind]
    simp only [hb, Res.ofOption, Res.ok_bind]
    rw [rdInt_vint _ hg.1, Res.ok_bind]
    have hlen : s.2.data.length = (lensOf Z s).length := by simp [lensOf]
    dsimp only
    rw [hlen, rdMany_rdInt _ _ (by
      intro n hn'
      simp only [lensOf, List.mem_map] at hn'
      obtain ⟨d, hd, rfl⟩ := hn'
      have := piece_small (hg.2 d hd)
      omega), Res.ok_bind]
    dsimp only
    rw [if_neg]
    · rw [ih _ _ (fun x hx => h x (by simp [hx])) hnd2.2]
      · simp
      · intro x hx a ha
        rcases List.mem_append.1 ha with ha | ha
        · exact hacc x (by simp [hx]) a ha
        · simp only [List.mem_singleton] at ha
          subst ha
          intro e
          exact hnd2.1 (List.mem_map.2 ⟨x, hx, e.symm⟩)
    · simp only [List.any_eq_true, beq_iff_eq, not_exists, not_and]
      exact fun a ha => hacc s (by simp) a ha

theorem readData_spec {Z : Zip} (hZ : Lawful Z) (fi : FI) : ∀ (ds : List (List Byte)) (rest : List Byte),
    (∀ d ∈ ds, GoodData Z fi d) →
    readData Z (isCompressed fi) (ds.map fun d => (piece Z fi d).length - 1) ((ds.map (piece Z fi)).flatten ++ rest) =
      .ok (ds, rest) := by
  intro ds
  induction ds with
  | nil => intro rest _; rfl
  | cons d ds ih =>
    intro rest h
    have hd := h d (by simp)
    have hl := piece_length hZ fi d
    simp only [List.map_cons, List.flatten_cons, readData, List.append_assoc]
    rw [show (piece Z fi d).length - 1 + 1 = (piece Z fi d).length by omega]
    have hrb : rdBytes (piece Z fi d).length (piece Z fi d ++ ((ds.map (piece Z fi)).flatten ++ rest)) =
      .ok (piece Z fi d, (ds.map (piece Z fi)).flatten ++ rest) := rdBytes_append _ _
    cases hc : isCompressed fi with
    | true =>
      have e : piece Z fi d = Z.zip d := by unfold piece; rw [if_pos hc]
      unfold GoodData at hd
      rw [if_pos hc] at hd
      simp only [if_true, readZipped]
      rw [e] at hrb ⊢
      rw [if_neg (by omega), hrb, Res.ok_bind]
      simp only [(hZ d).1]
      rw [if_pos hd.1, Res.ok_bind]
      have := ih rest (fun x hx => h x (by simp [hx]))
      rw [hc] at this
      simp only
      rw [this, Res.ok_bind]
    | false =>
      have e : piece Z fi d = d ++ [32] := by unfold piece; rw [hc]; rfl
      simp only [Bool.false_eq_true, if_false]
      rw [hrb, Res.ok_bind, Res.ok_bind]
      have := ih rest (fun x hx => h x (by simp [hx]))
      rw [hc] at this
      simp only
      rw [this, Res.ok_bind, e]
      simp

theorem readFields_spec {Z : Zip} (hZ : Lawful Z) : ∀ (ss : List (FI × DocF)) (rest : List Byte),
    (∀ s ∈ ss, s.1.name = s.2.name ∧ GoodField Z s.1 s.2) →
    readFields Z (ss.map (fun s => (s.1, lensOf Z s))) ((ss.map (bodyOf Z)).flatten ++ rest) = .ok (ss.map (·.2), rest) := by
  intro ss
  induction ss with
  | nil => intro rest _; rfl
  | cons s ss ih =>
    intro rest h
    obtain ⟨hn, hg⟩ := h s (by simp)
    simp only [List.map_cons, List.flatten_cons, readFields, List.append_assoc]
    rw [show lensOf Z s = s.2.data.map fun d => (piece Z s.1 d).length - 1 from rfl, show bodyOf Z s = (s.2.data.map (piece Z s.1)).flatten from rfl,
      readData_spec hZ s.1 s.2.data _ hg.2, Res.ok_bind, ih rest (fun x hx => h x (by simp [hx])), Res.ok_bind, hn]

theorem storedOf_mem {t : FIS} (hw : WF t) {doc : Doc} {s : FI × DocF} (h : s ∈ storedOf t doc) :
    byNumber t s.1.number = some s.1 ∧ s.1.name = s.2.name ∧ s.2 ∈ doc ∧ isStored s.1 = true := by
  unfold storedOf at h
  rw [List.mem_filterMap] at h
  obtain ⟨f, hf, he⟩ := h
  cases hg : getField t f.name with
  | none => rw [hg] at he; cases he
  | some fi =>
    rw [hg] at he
    simp only at he
    split at he
    · rename_i hs
      cases he
      obtain ⟨h1, h2, _⟩ := getField_byNumber hw hg
      exact ⟨h1, h2, hf, hs⟩
    · cases he

theorem storedOf_names {t : FIS} (hw : WF t) : ∀ (doc : Doc), (doc.map (·.name)).Nodup →
    ((storedOf t doc).map (fun s => s.1.name)).Nodup := by
  intro doc
  induction doc with
  | nil => intro _; simp [storedOf]
  | cons f doc ih =>
    intro h
    have h2 := List.nodup_cons.1 (show (f.name :: doc.map (·.name)).Nodup from h)
    cases hg : getField t f.name with
    | none =>
      have : storedOf t (f :: doc) = storedOf t doc := by
        unfold storedOf
        rw [List.filterMap_cons_none]
        rw [hg]
      rw [this]
      exact ih h2.2
    | some fi =>
      rw [storedOf_cons hg]
      cases isStored fi with
      | false => simpa using ih h2.2
      | true =>
        simp only [if_true, List.singleton_append, List.map_cons, List.nodup_cons]
        refine ⟨?_, ih h2.2⟩
        intro hm
        obtain ⟨s, hs, e⟩ := List.mem_map.1 hm
        obtain ⟨_, hn, hmem, _⟩ := storedOf_mem hw hs
        have hfn := (getField_byNumber hw hg).2.1
        exact h2.1 (List.mem_map.2 ⟨s.2, hmem, by rw [← hn, e, hfn]⟩)

/-! ### One document in the files -/

/-- The term vectors of a document: field number, posting lists, offsets. -/
abbrev TvE := Nat × List PL × List (Int × Int)

/-- The bytes of one term vector. -/
def tvRec (t : FIS) (e : TvE) : List Byte :=
  match byNumber t e.1 with
  | some fi => tvBytes fi e.2.1 e.2.2
  | none => []

/-- The bytes of the stored fields of a document. -/
def docPart (Z : Zip) (t : FIS) (doc : Doc) : List Byte :=
  vint (storedOf t doc).length ++ (((storedOf t doc).map (headOf Z)).flatten ++ ((storedOf t doc).map (bodyOf Z)).flatten)

/-- The bytes of the term vectors of a document. -/
def tvPart (t : FIS) (tvs : List TvE) : List Byte := (tvs.map (tvRec t)).flatten

/-- The bytes of the index of the term vectors. -/
def idxPart (t : FIS) (tvs : List TvE) : List Byte :=
  vint tvs.length ++ (tvs.reverse.map fun e => vint e.1 ++ vint (tvRec t e).length).flatten

theorem postings_spec (t : FIS) : ∀ (tvs : List TvE) (w : FW), w.fis = t → (∀ e ∈ tvs, ∃ fi, byNumber t e.1 = some fi) →
    tvs.foldlM (fun w e => fwAddPostings w e.1 e.2.1 e.2.2) w = .ok { w with
      fdt := w.fdt ++ tvPart t tvs
      tvFields := w.tvFields ++ tvs.map (fun e => (e.1, (tvRec t e).length)) } := by
  intro tvs
  induction tvs with
  | nil => intro w _ _; simp [tvPart]
  | cons e tvs ih =>
    intro w hw h
    obtain ⟨fi, hfi⟩ := h e (by simp)
    have e1 : fwAddPostings w e.1 e.2.1 e.2.2 =
        .ok { w with fdt := w.fdt ++ tvRec t e, tvFields := w.tvFields ++ [(e.1, (tvRec t e).length)] } := by
      unfold fwAddPostings tvRec
      rw [hw, hfi]
      rfl
    rw [List.foldlM_cons, e1, Res.ok_bind, ih]
    · simp [tvPart]
    · exact hw
    · exact fun x hx => h x (by simp [hx])

/-- A document that fits. -/
structure GoodDoc (Z : Zip) (t : FIS) (doc : Doc) : Prop where
  names : (doc.map (·.name)).Nodup
  few : doc.length < 2 ^ 31
  fields : ∀ s ∈ storedOf t doc, GoodField Z s.1 s.2

theorem addDocument_spec {Z : Zip} (hZ : Lawful Z) (w : FW) (hw : WF w.fis) (doc : Doc) (tvs : List TvE)
    (hd : GoodDoc Z (afterDoc w.fis doc) doc) (ht : ∀ e ∈ tvs, ∃ fi, byNumber (afterDoc w.fis doc) e.1 = some fi) :
    ∃ w', addDocument Z w doc tvs = .ok w' ∧ w'.fis = afterDoc w.fis doc ∧
      w'.fdt = w.fdt ++ (docPart Z (afterDoc w.fis doc) doc ++ (tvPart (afterDoc w.fis doc) tvs ++ idxPart (afterDoc w.fis doc) tvs)) ∧
      w'.fdx = w.fdx ++ (beBytes 8 w.fdt.length ++
        beBytes 4 (((docPart Z (afterDoc w.fis doc) doc).length + (tvPart (afterDoc w.fis doc) tvs).length) % 2 ^ 32)) := by
  obtain ⟨h1, h2, h3, h4⟩ := afterDoc_spec doc w.fis hw
  unfold addDocument fwAddDoc
  rw [countStored_spec doc _ hw, Res.ok_bind]
  dsimp only
  rw [writeFields_spec hZ _ doc h4 hd.fields, Res.ok_bind, Res.ok_bind, postings_spec (afterDoc w.fis doc) tvs _ rfl ht, Res.ok_bind]
  refine ⟨_, rfl, rfl, ?_, ?_⟩
  · simp [fwWriteTvIndex, docPart, idxPart, Function.comp_def, ← List.map_reverse]
  · simp only [fwWriteTvIndex, docPart, List.append_assoc, List.length_append]
    congr 4
    omega

/-! ### The files as a whole -/

/-- Document `k` is in the files. -/
def Written (Z : Zip) (w : FW) (k : Nat) (doc : Doc) (tvs : List TvE) : Prop :=
  ∃ t start rest rest', WF t ∧ Within t w.fis ∧ (∀ f ∈ doc, ∃ fi, getField t f.name = some fi) ∧
    (∀ e ∈ tvs, ∃ fi, byNumber t e.1 = some fi) ∧ start ≤ w.fdt.length ∧ 12 * k ≤ w.fdx.length ∧
    w.fdt.drop start = docPart Z t doc ++ (tvPart t tvs ++ (idxPart t tvs ++ rest)) ∧
    w.fdx.drop (12 * k) = beBytes 8 start ++ (beBytes 4 (((docPart Z t doc).length + (tvPart t tvs).length) % 2 ^ 32) ++ rest')

theorem Written.mono {Z : Zip} {w w' : FW} {k : Nat} {doc : Doc} {tvs : List TvE} (h : Written Z w k doc tvs)
    (hf : Within w.fis w'.fis) {x y : List Byte} (h1 : w'.fdt = w.fdt ++ x) (h2 : w'.fdx = w.fdx ++ y) :
    Written Z w' k doc tvs := by
  obtain ⟨t, start, rest, rest', a, b, c, d, e, f, g, i⟩ := h
  refine ⟨t, start, rest ++ x, rest' ++ y, a, b.trans hf, c, d, by rw [h1]; simp; omega, by rw [h2]; simp; omega, ?_, ?_⟩
  · rw [h1, List.drop_append_of_le_length e, g]; simp
  · rw [h2, List.drop_append_of_le_length f, i]; simp

/-! ### Reading documents from the files -/

theorem beBytes_length (k n : Nat) : (beBytes k n).length = k := by
  induction k generalizing n with
  | zero => rfl
  | succ k ih => simp [beBytes, ih]

/-- What is at the start of document `k`. -/
theorem docStart_spec {Z : Zip} {w : FW} {k : Nat} {doc : Doc} {tvs : List TvE} (h : Written Z w k doc tvs)
    (T : FIS) (hlen : w.fdt.length < 2 ^ 64) (hk : k * 12 < 2 ^ 31) :
    ∃ t start rest, WF t ∧ Within t w.fis ∧ (∀ f ∈ doc, ∃ fi, getField t f.name = some fi) ∧
      docStart (frOpen w.fdt w.fdx T) k = .ok start ∧ w.fdt.drop start = docPart Z t doc ++ rest := by
  obtain ⟨t, start, rest, rest', a, b, c, d, e, f, g, i⟩ := h
  refine ⟨t, start, tvPart t tvs ++ (idxPart t tvs ++ rest), a, b, c, ?_, g⟩
  unfold docStart
  rw [if_pos hk]
  simp only [frOpen]
  rw [Nat.mul_comm, i, rdBE_beBytes 8 0 start _ (by omega), Res.ok_bind]
  simp

theorem frGetDoc_spec {Z : Zip} (hZ : Lawful Z) {w : FW} {k : Nat} {doc : Doc} {tvs : List TvE} (h : Written Z w k doc tvs)
    (T : FIS) (hT : WF T) (hwT : Within w.fis T) (hn : T.fields.length < 2 ^ 31) (hd : GoodDoc Z T doc)
    (hlen : w.fdt.length < 2 ^ 64) (hk : k * 12 < 2 ^ 31) :
    frGetDoc Z (frOpen w.fdt w.fdx T) k = .ok ((storedOf T doc).map (·.2)) := by
  obtain ⟨t, start, rest, a, b, c, e, g⟩ := docStart_spec h T hlen hk
  have hst : storedOf t doc = storedOf T doc := (storedOf_within (b.trans hwT) doc c).symm
  unfold frGetDoc
  rw [e, Res.ok_bind]
  simp only [frOpen]
  have hle : (storedOf T doc).length ≤ doc.length := List.length_filterMap_le _ _
  rw [g, docPart, hst, List.append_assoc, rdInt_vint _ (by have := hd.few; omega), Res.ok_bind]
  dsimp only
  rw [List.append_assoc, readHeads_spec T hn hT _ [] _ (fun s hs => ⟨(storedOf_mem hT hs).1, hd.fields s hs⟩)
    (storedOf_names hT doc hd.names) (fun _ _ _ h => nomatch h), Res.ok_bind]
  dsimp only
  rw [List.nil_append, readFields_spec hZ _ _ (fun s hs => ⟨(storedOf_mem hT hs).2.1, hd.fields s hs⟩), Res.ok_bind]

theorem storedOf_filter {t : FIS} (doc : Doc) : (storedOf t doc).map (·.2) =
    doc.filter (fun f => (getField t f.name).any isStored) := by
  induction doc with
  | nil => rfl
  | cons f doc ih =>
    cases hg : getField t f.name with
    | none =>
      have : storedOf t (f :: doc) = storedOf t doc := by
        unfold storedOf
        rw [List.filterMap_cons_none]
        rw [hg]
      rw [this, List.filter_cons_of_neg (by simp [hg]), ih]
    | some fi =>
      rw [storedOf_cons hg]
      cases hs : isStored fi with
      | true => rw [List.filter_cons_of_pos (by simp [hg, hs])]; simp [ih]
      | false => rw [List.filter_cons_of_neg (by simp [hg, hs])]; simp [ih]

/-! ### Lazy documents -/

/-- The data of a lazy field as they are first. -/
def lazyDatas (Z : Zip) (fi : FI) : Nat → List (List Byte) → List LazyData
  | _, [] => []
  | start, d :: ds => ⟨start, (piece Z fi d).length - 1, none⟩ :: lazyDatas Z fi (start + (piece Z fi d).length) ds

/-- The lazy document as it is first. -/
def lazyOf (Z : Zip) : Nat → List (FI × DocF) → List LazyF
  | _, [] => []
  | start, s :: ss => ⟨s.1.name, lazyDatas Z s.1 start s.2.data, ((bodyOf Z s).length : Int) - 1,
      if isCompressed s.1 then 1 else 0⟩ :: lazyOf Z (start + (bodyOf Z s).length) ss

theorem lazyLens_spec {Z : Zip} (hZ : Lawful Z) (fi : FI) : ∀ (ds : List (List Byte)) (start : Nat) (rest : List Byte),
    (∀ d ∈ ds, GoodData Z fi d) →
    lazyLens ds.length start ((ds.map fun d => vint ((piece Z fi d).length - 1)).flatten ++ rest) =
      .ok ((start + (ds.map (piece Z fi)).flatten.length, lazyDatas Z fi start ds), rest) := by
  intro ds
  induction ds with
  | nil => intro start rest _; rfl
  | cons d ds ih =>
    intro start rest h
    have hl := piece_length hZ fi d
    have hs := piece_small (h d (by simp))
    simp only [List.length_cons, lazyLens, List.map_cons, List.flatten_cons, List.append_assoc]
    rw [rdInt_vint _ (by omega), Res.ok_bind]
    dsimp only
    rw [show start + 1 + ((piece Z fi d).length - 1) = start + (piece Z fi d).length by omega,
      ih _ rest (fun x hx => h x (by simp [hx])), Res.ok_bind]
    simp [lazyDatas, Nat.add_assoc]

theorem lazyHeads_spec {Z : Zip} (hZ : Lawful Z) (t : FIS) (hn : t.fields.length < 2 ^ 31) :
    ∀ (ss : List (FI × DocF)) (start : Nat) (rest : List Byte),
    (∀ s ∈ ss, byNumber t s.1.number = some s.1 ∧ GoodField Z s.1 s.2) →
    lazyHeads t ss.length start ((ss.map (headOf Z)).flatten ++ rest) = .ok (lazyOf Z start ss, rest) := by
  intro ss
  induction ss with
  | nil => intro start rest _; rfl
  | cons s ss ih =>
    intro start rest h
    obtain ⟨hb, hg⟩ := h s (by simp)
    have hlt : s.1.number < t.fields.length := by
      unfold byNumber at hb
      rw [List.getElem?_eq_some_iff] at hb
      exact hb.1
    simp only [List.length_cons, lazyHeads, List.map_cons, List.flatten_cons]
    rw [show headOf Z s ++ (ss.map (headOf Z)).flatten ++ rest =
      vint s.1.number ++ (vint s.2.data.length ++ ((s.2.data.map fun d => vint ((piece Z s.1 d).length - 1)).flatten ++ ((ss.map (headOf Z)).flatten ++ rest))) by
        simp [headOf, List.append_assoc]]
    rw [rdInt_vint _ (by omega), Res.ok_bind]
    simp only [hb, Res.ofOption, Res.ok_bind]
    rw [rdInt_vint _ hg.1, Res.ok_bind]
    dsimp only
    rw [lazyLens_spec hZ s.1 s.2.data start _ hg.2, Res.ok_bind]
    dsimp only
    rw [ih _ rest (fun x hx => h x (by simp [hx])), Res.ok_bind]
    simp only [lazyOf, bodyOf]
    congr 4
    omega

theorem lazyDatas_shift (Z : Zip) (fi : FI) (a : Nat) : ∀ (ds : List (List Byte)) (start : Nat),
    (lazyDatas Z fi start ds).map (fun d => { d with start := d.start + a }) = lazyDatas Z fi (start + a) ds := by
  intro ds
  induction ds with
  | nil => intro start; rfl
  | cons d ds ih =>
    intro start
    simp only [lazyDatas, List.map_cons, ih]
    rw [show start + (piece Z fi d).length + a = start + a + (piece Z fi d).length by omega]

theorem lazyOf_shift (Z : Zip) (a : Nat) : ∀ (ss : List (FI × DocF)) (start : Nat),
    (lazyOf Z start ss).map (fun f => { f with data := f.data.map fun d => { d with start := d.start + a } }) =
      lazyOf Z (start + a) ss := by
  intro ss
  induction ss with
  | nil => intro start; rfl
  | cons s ss ih =>
    intro start
    simp only [lazyOf, List.map_cons, ih, lazyDatas_shift]
    rw [show start + (bodyOf Z s).length + a = start + a + (bodyOf Z s).length by omega]

theorem lazyDatas_length (Z : Zip) (fi : FI) : ∀ (ds : List (List Byte)) (start : Nat), (lazyDatas Z fi start ds).length = ds.length := by
  intro ds
  induction ds with
  | nil => intro start; rfl
  | cons d ds ih => intro start; simp [lazyDatas, ih]

theorem drop_more {l a b : List Byte} {n : Nat} (h : l.drop n = a ++ b) : l.drop (n + a.length) = b := by
  rw [← List.drop_drop, h]; simp

theorem lazyDatas_at (Z : Zip) (fi : FI) (fdt : List Byte) : ∀ (ds : List (List Byte)) (start : Nat) (rest : List Byte),
    fdt.drop start = (ds.map (piece Z fi)).flatten ++ rest → ∀ (i : Nat) (d : List Byte) (ld : LazyData),
    ds[i]? = some d → (lazyDatas Z fi start ds)[i]? = some ld →
    ld.text = none ∧ ld.length = (piece Z fi d).length - 1 ∧ ∃ r, fdt.drop ld.start = piece Z fi d ++ r := by
  intro ds
  induction ds with
  | nil => intro start rest _ i d ld h; simp at h
  | cons x ds ih =>
    intro start rest h i d ld hd hl
    simp only [List.map_cons, List.flatten_cons, List.append_assoc] at h
    cases i with
    | zero =>
      simp only [List.getElem?_cons_zero, Option.some.injEq] at hd
      simp only [lazyDatas, List.getElem?_cons_zero, Option.some.injEq] at hl
      subst hd hl
      exact ⟨rfl, rfl, _, h⟩
    | succ i =>
      simp only [List.getElem?_cons_succ] at hd
      simp only [lazyDatas, List.getElem?_cons_succ] at hl
      exact ih _ rest (drop_more h) i d ld hd hl

/-- The state of a lazy field. -/
structure LInv (Z : Zip) (fdt : List Byte) (s : FI × DocF) (f : LazyF) : Prop where
  name : f.name = s.1.name
  size : f.data.length = s.2.data.length
  each : ∀ (i : Nat) (d : List Byte) (ld : LazyData), s.2.data[i]? = some d → f.data[i]? = some ld →
    (ld.text = none ∧ ld.length = (piece Z s.1 d).length - 1 ∧ ∃ r, fdt.drop ld.start = piece Z s.1 d ++ r) ∨
    (ld.text = some d ∧ ld.length = d.length)
  plain : isCompressed s.1 = false → f.compressed = 0 ∧ f.len = ((bodyOf Z s).length : Int) - 1 ∧
    ∀ ld, f.data[0]? = some ld → ∃ r, fdt.drop ld.start = bodyOf Z s ++ r
  packed : isCompressed s.1 = true → f.compressed = 1 ∨ (f.compressed = 2 ∧
    f.len = (((s.2.data.map (fun d => d.length + 1)).sum : Nat) : Int) - 1 ∧
    ∀ (i : Nat) (d : List Byte) (ld : LazyData), s.2.data[i]? = some d → f.data[i]? = some ld → ld.text = some d ∧ ld.length = d.length)

theorem lazyOf_at (Z : Zip) (fdt : List Byte) : ∀ (ss : List (FI × DocF)) (start : Nat) (rest : List Byte),
    fdt.drop start = (ss.map (bodyOf Z)).flatten ++ rest → ∀ (i : Nat) (s : FI × DocF), ss[i]? = some s →
    ∃ f, (lazyOf Z start ss)[i]? = some f ∧ LInv Z fdt s f := by
  intro ss
  induction ss with
  | nil => intro start rest _ i s h; simp at h
  | cons x ss ih =>
    intro start rest h i s hs
    simp only [List.map_cons, List.flatten_cons, List.append_assoc] at h
    cases i with
    | succ i =>
      simp only [List.getElem?_cons_succ] at hs
      simp only [lazyOf, List.getElem?_cons_succ]
      exact ih _ rest (drop_more h) i s hs
    | zero =>
      simp only [List.getElem?_cons_zero, Option.some.injEq] at hs
      subst hs
      refine ⟨_, rfl, rfl, lazyDatas_length _ _ _ _, ?_, ?_, ?_⟩
      · intro i d ld hd hl
        exact .inl (lazyDatas_at Z x.1 fdt x.2.data start _ h i d ld hd hl)
      · intro hc
        refine ⟨by simp [hc], rfl, ?_⟩
        intro ld hl
        cases hx : x.2.data with
        | nil => simp [hx, lazyDatas] at hl
        | cons d ds =>
          simp only [hx, lazyDatas, List.getElem?_cons_zero, Option.some.injEq] at hl
          subst hl
          exact ⟨_, h⟩
      · intro hc
        exact .inl (by simp [hc])

theorem frGetLazyDoc_spec {Z : Zip} (hZ : Lawful Z) {w : FW} {k : Nat} {doc : Doc} {tvs : List TvE} (h : Written Z w k doc tvs)
    (T : FIS) (hT : WF T) (hwT : Within w.fis T) (hn : T.fields.length < 2 ^ 31) (hd : GoodDoc Z T doc)
    (hlen : w.fdt.length < 2 ^ 64) (hk : k * 12 < 2 ^ 31) :
    ∃ fs, frGetLazyDoc (frOpen w.fdt w.fdx T) k = .ok fs ∧ fs.length = (storedOf T doc).length ∧
      ∀ (i : Nat) (s : FI × DocF), (storedOf T doc)[i]? = some s → ∃ f, fs[i]? = some f ∧ LInv Z w.fdt s f := by
  obtain ⟨t, start, rest, a, b, c, e, g⟩ := docStart_spec h T hlen hk
  have hst : storedOf t doc = storedOf T doc := (storedOf_within (b.trans hwT) doc c).symm
  unfold frGetLazyDoc
  rw [e, Res.ok_bind]
  simp only [frOpen]
  have hle : (storedOf T doc).length ≤ doc.length := List.length_filterMap_le _ _
  rw [docPart, hst] at g
  rw [g, List.append_assoc, rdInt_vint _ (by have := hd.few; omega), Res.ok_bind]
  dsimp only
  rw [List.append_assoc, lazyHeads_spec hZ T hn _ 0 _ (fun s hs => ⟨(storedOf_mem hT hs).1, hd.fields s hs⟩), Res.ok_bind]
  dsimp only
  rw [lazyOf_shift]
  refine ⟨_, rfl, ?_, ?_⟩
  · generalize (0 + _) = n
    generalize storedOf T doc = ss
    induction ss generalizing n with
    | nil => rfl
    | cons s ss ih => simp [lazyOf, ih]
  · apply lazyOf_at Z w.fdt (storedOf T doc) _ rest
    have hg2 : w.fdt.drop (start + ((vint (storedOf T doc).length).length + ((storedOf T doc).map (headOf Z)).flatten.length)) =
        ((storedOf T doc).map (bodyOf Z)).flatten ++ rest := by
      rw [← List.length_append]
      exact drop_more (by rw [g]; simp)
    generalize start + ((vint (storedOf T doc).length).length + ((storedOf T doc).map (headOf Z)).flatten.length) = p at hg2
    generalize ((storedOf T doc).map (bodyOf Z)).flatten ++ rest = l at hg2 ⊢
    by_cases hp : p ≤ w.fdt.length
    · have : l.length = w.fdt.length - p := by rw [← hg2]; simp
      rw [show 0 + (w.fdt.length - l.length) = p by omega]
      exact hg2
    · have : l = [] := by rw [← hg2]; exact List.drop_eq_nil_of_le (by omega)
      subst this
      exact List.drop_eq_nil_of_le (by simp)

end Ferret.Fields
