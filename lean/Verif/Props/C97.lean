import Verif.Lemmas.DocRun

/-!
C97: documents keep what is put into them and are freed once.
-/

namespace Ferret.Props
open Ferret Ferret.Spec Ferret.Docs

/-- **C97, partial.** Whatever a program does with texts, fields and documents, if the rules allow every call (`docRun`: what is used is there and nothing is freed twice), every call gives what it
should: fields keep their texts in the order they were added, documents find their fields by name and refuse a second field of the same name, texts are printed whole, no memory is used that is not
allocated; and afterwards exactly the things that were freed are not there any more.

Missing: a field put into two documents, or a text that two fields own, is freed twice when all is destroyed (`c97_two_documents_ub`, `c97_shared_text_ub`); the text of a document is cut at a NUL
(`c97_text_cut`); and adding an array of texts to an index fails (`c97_add_array_raises`) or leaves copies in memory (`c97_add_string_leaks`). -/
theorem c97_documents_partial (cs : List DocCall) (os : List DocOut) (W : List Thing) (h : docRun [] cs = some (os, W)) :
    ∃ st, run ⟨[], []⟩ cs = .ok (os, st) ∧ st.heap.length = W.length ∧ ∀ i : Nat, st.heap[i]? = some .gone ↔ W[i]? = some .freed := by
  have h0 : Rel ⟨[], []⟩ [] := ⟨rfl, by simp, by intro i c t hc; simp at hc, by intro f n d o hw; simp at hw⟩
  obtain ⟨st, h1, h2⟩ := run_ok cs _ _ _ _ h0 h
  refine ⟨st, h1, h2.len, fun i => ⟨fun hg => ?_, fun hf => ?_⟩⟩
  · have hi : i < W.length := by rw [← h2.len]; exact (List.getElem?_eq_some_iff.1 hg).1
    have := h2.cells i _ _ hg (List.getElem?_eq_getElem hi)
    rw [List.getElem?_eq_getElem hi]
    cases hw : W[i] <;> rw [hw] at this <;> simp only [CellRel] at this
  · obtain ⟨c, hc, hr⟩ := h2.cell hf
    cases c <;> simp only [CellRel] at hr
    exact hc

/-- A program that makes a document of two fields (one with six texts), looks it up, is refused a second title, prints it and frees everything. -/
def docProgram : List DocCall :=
  [.text [97, 98], .text [99], .field [116], .field [98], .field [116], .doc, .add 2 0, .addLen 3 1 1, .add 3 0, .add 3 1, .add 3 0, .add 3 1, .addLen 3 0 1, .put 5 2, .put 5 3, .put 5 4,
   .get 5 [98], .get 5 [122], .showField 2, .showField 3, .own 2 true, .showDoc 5, .dropDoc 5, .dropField 4, .dropText 1]

/-- What it gets. -/
def docResults : List DocOut × List Thing := ((docRun [] docProgram).getD ([], []))

/-- The rules allow it; nothing is left. -/
example : docRun [] docProgram = some docResults ∧ docResults.2 = List.replicate 6 .freed := by decide +kernel

/-- The second title is refused, the body is found, and the text of the body is `b: ["c", "ab", "c", "ab", "c", "a"]`. -/
example : docResults.1[15]? = some .error ∧ docResults.1[16]? = some (.ref 3) ∧ docResults.1[17]? = some .null ∧
    docResults.1[19]? = some (.bytes [98, 58, 32, 91, 34, 99, 34, 44, 32, 34, 97, 98, 34, 44, 32, 34, 99, 34, 44, 32, 34, 97, 98, 34, 44, 32, 34, 99, 34, 44, 32, 34, 97, 34, 93]) := by
  decide +kernel

/-- The symbols of some names. -/
def internAll (syms : List (List Byte)) : List (List Byte) → List Nat × List (List Byte)
  | [] => ([], syms)
  | s :: ss => let p := intern syms s; let q := internAll p.1 ss; (p.2 :: q.1, q.2)

theorem internAll_spec (ss : List (List Byte)) : ∀ (syms : List (List Byte)), syms.Nodup →
    (internAll syms ss).2.Nodup ∧ (∃ more, (internAll syms ss).2 = syms ++ more) ∧
    ∀ (i : Nat) (s : List Byte), ss[i]? = some s → ∃ k, (internAll syms ss).1[i]? = some k ∧ (internAll syms ss).2[k]? = some s := by
  induction ss with
  | nil => intro syms hn; exact ⟨hn, ⟨[], by simp [internAll]⟩, by intro i s h; simp at h⟩
  | cons x xs ih =>
    intro syms hn
    obtain ⟨h1, h2, more, h3⟩ := intern_spec hn x
    obtain ⟨h4, ⟨more', h5⟩, h6⟩ := ih _ h1
    refine ⟨h4, ⟨more ++ more', by simp only [internAll]; rw [h5, h3, List.append_assoc]⟩, ?_⟩
    intro i s hs
    cases i with
    | zero =>
      simp only [List.getElem?_cons_zero, Option.some.injEq] at hs
      subst hs
      refine ⟨_, rfl, ?_⟩
      simp only [internAll]
      rw [h5, List.getElem?_append_left (List.getElem?_eq_some_iff.1 h2).1]
      exact h2
    | succ i => exact h6 i s (by simpa using hs)

/-- Names are the same symbol exactly when they are the same text, whatever names were made into symbols before and between. -/
theorem c97_symbols (ss : List (List Byte)) (i j : Nat) (s t : List Byte) (hi : ss[i]? = some s) (hj : ss[j]? = some t) :
    ∃ a b, (internAll [] ss).1[i]? = some a ∧ (internAll [] ss).1[j]? = some b ∧ (a = b ↔ s = t) := by
  obtain ⟨h1, -, h2⟩ := internAll_spec ss [] (by simp)
  obtain ⟨a, ha, ha'⟩ := h2 i s hi
  obtain ⟨b, hb, hb'⟩ := h2 j t hj
  exact ⟨a, b, ha, hb, sym_inj h1 ha' hb'⟩

example : (internAll [] [[97], [98], [97], [], [98]]).1 = [0, 1, 0, 2, 1] := by decide

/-! ### Where the code does not do it -/

/-- A field that was put into two documents is freed twice. -/
theorem c97_two_documents_ub : run ⟨[], []⟩ [.field [97], .doc, .doc, .put 1 0, .put 2 0, .dropDoc 1, .dropDoc 2] = .ub := by decide +kernel

/-- So is a text that two fields own, or one field twice. -/
theorem c97_shared_text_ub : run ⟨[], []⟩ [.text [97], .field [97], .add 1 0, .add 1 0, .own 1 true, .dropField 1] = .ub := by decide +kernel

/-- The text of a document ends at the first NUL of a field: of `x<NUL>y` and the end of the line only `x` is left. The field alone is printed whole. -/
theorem c97_text_cut : (run ⟨[], []⟩ [.text [120, 0, 121], .field [97], .addLen 1 0 3, .doc, .put 2 1, .showField 1, .showDoc 2] >>= fun p => .ok p.1) =
    .ok [.ref 0, .ref 1, .ref 1, .ref 2, .ref 1, .bytes [97, 58, 32, 34, 120, 0, 121, 34],
      .bytes [68, 111, 99, 117, 109, 101, 110, 116, 32, 91, 10, 32, 32, 61, 62, 97, 58, 32, 34, 120, 10]] := by
  decide +kernel

/-- One field with a copy of a text in a new document. -/
theorem addCopy_new (h : List Cell) (sym : Nat) (text : List Byte) :
    addCopy (h ++ [.doc docNew]) h.length sym text =
      .ok (h ++ [.doc ⟨[(sym, h.length + 1)], 1, (docNew.fields.set 0 (some (h.length + 1)))⟩,
        .field ⟨sym, 1, [some (h.length + 2, (strlen (text.takeWhile (fun c => decide (c ≠ 0))) : Nat))], false⟩, .str (text.takeWhile (fun c => decide (c ≠ 0)))]) := by
  have e0 : ∀ (x y z : Cell), (h ++ [x, y, z])[h.length]? = some x := by intro x y z; simp
  have e1 : ∀ (x y z : Cell), (h ++ [x, y, z])[h.length + 1]? = some y := by intro x y z; simp
  have e2 : ∀ (x y z : Cell), (h ++ [x, y, z])[h.length + 2]? = some z := by intro x y z; simp
  have s0 : ∀ (x y z w : Cell), (h ++ [x, y, z]).set h.length w = h ++ [w, y, z] := by intro x y z w; simp [List.set_append_right]
  have s1 : ∀ (x y z w : Cell), (h ++ [x, y, z]).set (h.length + 1) w = h ++ [x, w, z] := by intro x y z w; simp [List.set_append_right]
  unfold addCopy dfAddData dfAddDataLen getStr getField
  simp only [List.length_append, List.length_cons, List.length_nil, Nat.zero_add, List.append_assoc, List.cons_append, List.nil_append, Nat.add_assoc, Nat.reduceAdd, e1, e2, Res.ok_bind]
  simp only [store, dfNew, List.length_cons, List.length_nil, Nat.zero_add, Nat.zero_lt_one, if_true, Res.ok_bind, List.set_cons_zero, s1, ge_iff_le, Nat.le_zero_eq, Nat.one_ne_zero, if_false]
  unfold docAddField getDoc getField
  simp only [e0, e1, Res.ok_bind, docNew, List.any_nil, Bool.false_eq_true, if_false, store, List.length_replicate, ge_iff_le, Nat.reduceLeDiff, Nat.reduceLT, if_true, s0, List.nil_append, Nat.zero_add]

/-- A field of that name is there already: it is refused. -/
theorem addCopy_again (h : List Cell) (d sym : Nat) (doc : Doc) (hd : h[d]? = some (.doc doc)) (hs : ∃ p ∈ doc.dict, p.1 = sym) (text : List Byte) :
    addCopy h d sym text = .raise .exception := by
  have hdl : d < h.length := (List.getElem?_eq_some_iff.1 hd).1
  have e0 : ∀ (x y : Cell), (h ++ [x, y])[h.length]? = some x := by intro x y; simp
  have e1 : ∀ (x y : Cell), (h ++ [x, y])[h.length + 1]? = some y := by intro x y; simp
  have s0 : ∀ (x y w : Cell), (h ++ [x, y]).set h.length w = h ++ [w, y] := by intro x y w; simp [List.set_append_right]
  have ed : ∀ (x y : Cell), (h ++ [x, y])[d]? = some (.doc doc) := by intro x y; rw [List.getElem?_append_left hdl]; exact hd
  have ha : doc.dict.any (fun p => decide (p.1 = sym)) = true := by
    obtain ⟨p, hp, e⟩ := hs
    rw [List.any_eq_true]
    exact ⟨p, hp, by simpa using e⟩
  unfold addCopy dfAddData dfAddDataLen getStr getField
  simp only [e0, e1, Res.ok_bind]
  simp only [store, dfNew, List.length_cons, List.length_nil, Nat.zero_add, Nat.zero_lt_one, if_true, Res.ok_bind, List.set_cons_zero, s0, ge_iff_le, Nat.le_zero_eq, Nat.one_ne_zero, if_false]
  unfold docAddField getDoc getField
  simp only [ed, e0, Res.ok_bind, ha, if_true]

/-- Adding an array of two or more texts to an index raises an error, whatever the texts, the field and the index: all would become fields of the same name. Nothing is added, and what was made for
it stays in memory. -/
theorem c97_add_array_raises (add : St → Nat → Res Unit) (st : St) (sym : Nat) (t u : List Byte) (texts : List (List Byte)) :
    indexAddArray add st sym (t :: u :: texts) = .raise .exception := by
  unfold indexAddArray
  simp only [addCopies, addCopy_new, Res.ok_bind]
  have hd : ∀ (x y z : Cell), (st.heap ++ [x, y, z])[st.heap.length]? = some x := by intro x y z; simp
  rw [addCopy_again _ st.heap.length sym _ (hd _ _ _) ⟨(sym, st.heap.length + 1), by simp, rfl⟩]
  rfl

/-- Adding one text works, with a document that has just that text as the field of the index; the copy of the text stays in memory for good (the document and the field are freed). -/
theorem c97_add_string_leaks (add : St → Nat → Res Unit) (hadd : ∀ s d, add s d = .ok ()) (st : St) (sym : Nat) (text : List Byte) :
    indexAddString add st sym text = .ok { st with heap := st.heap ++ [.gone, .gone, .str (text.takeWhile (fun c => decide (c ≠ 0)))] } ∧
    indexAddArray add st sym [text] = indexAddString add st sym text := by
  have e0 : ∀ (x y z : Cell), (st.heap ++ [x, y, z])[st.heap.length]? = some x := by intro x y z; simp
  have e1 : ∀ (x y z : Cell), (st.heap ++ [x, y, z])[st.heap.length + 1]? = some y := by intro x y z; simp
  have s0 : ∀ (x y z w : Cell), (st.heap ++ [x, y, z]).set st.heap.length w = st.heap ++ [w, y, z] := by intro x y z w; simp [List.set_append_right]
  have s1 : ∀ (x y z w : Cell), (st.heap ++ [x, y, z]).set (st.heap.length + 1) w = st.heap ++ [x, w, z] := by intro x y z w; simp [List.set_append_right]
  constructor
  · unfold indexAddString
    simp only [addCopy_new, Res.ok_bind, hadd]
    unfold docDestroy getDoc
    simp only [e0, Res.ok_bind, destroyFields, dfDestroy, getField, e1, Bool.false_eq_true, if_false, release, s1, s0]
  · unfold indexAddArray indexAddString
    simp only [addCopies, addCopy_new, Res.ok_bind]

#print axioms c97_documents_partial
#print axioms c97_symbols
#print axioms c97_two_documents_ub
#print axioms c97_shared_text_ub
#print axioms c97_text_cut
#print axioms c97_add_array_raises
#print axioms c97_add_string_leaks
end Ferret.Props
