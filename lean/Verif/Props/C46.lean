import Verif.Lemmas.Highlight
import Verif.Lemmas.FieldsRun
import Verif.Props.C18
import Verif.Props.C47

/-!
C46: removing the inserted tags from a full-field highlight gives back the stored field; every tag pair
encloses a match.
-/

namespace Ferret.Props
open Ferret Ferret.Spec Ferret.MV Ferret.Fis Ferret.Fields

/-- Is the position the first or the last of a match? -/
def matchEnd (rs : List (Int × Int)) (p : Int) : Prop := ∃ r ∈ rs, p = r.1 ∨ p = r.2

/-- The term vector has offsets for the first and the last position of every match, that lie in the text and
go forward with the position. -/
structure OffsetsFine (text : List Byte) (rs : List (Int × Int)) (offsets : List (Int × Int)) : Prop where
  known : ∀ p, matchEnd rs p → 0 ≤ p ∧ ∃ o, offsets[p.toNat]? = some o ∧ 0 ≤ o.1 ∧ o.1 ≤ o.2 ∧ o.2 ≤ text.length
  forward : ∀ p q, matchEnd rs p → matchEnd rs q → p < q → ∀ a b, offsets[p.toNat]? = some a → offsets[q.toNat]? = some b → a.2 ≤ b.1

/-- The text is highlighted: `out` is the text with tags around parts that are, one for one and in order, the
text of ranges of positions covering exactly the matches. -/
def Highlighted (text : List Byte) (rs offsets : List (Int × Int)) (pre post out : List Byte) : Prop :=
  ∃ (cuts : Cuts) (ms : List Range), cuts.plain = text ∧ out = cuts.tagged pre post ∧ cuts.parts.length = ms.length ∧
    apart 0 ms ∧ (∀ p, coveredBy ms p ↔ coveredBy (asAdded rs) p) ∧
    ∀ i m, ms[i]? = some m → ∃ a b, offsets[m.1.1.toNat]? = some a ∧ offsets[m.1.2.toNat]? = some b ∧ cuts.tagsFrom i a.1 b.2

/-- The offsets the ranges get. -/
def offsetsOf (offsets : List (Int × Int)) (ms : List MR) : List (Int × Int) :=
  ms.map fun m => ((offsets[m.start.toNat]?.getD (0, 0)).1, (offsets[m.stop.toNat]?.getD (0, 0)).2)

theorem setOffsets_is (offsets : List (Int × Int)) : ∀ ms : List MR,
    (∀ m ∈ ms, 0 ≤ m.start ∧ 0 ≤ m.stop ∧ (∃ a, offsets[m.start.toNat]? = some a) ∧ ∃ b, offsets[m.stop.toNat]? = some b) →
    setOffsets offsets ms = .ok (offsetsOf offsets ms) := by
  intro ms
  induction ms with
  | nil => intro _; rfl
  | cons m ms ih =>
    intro h
    obtain ⟨h1, h2, ⟨a, h3⟩, b, h4⟩ := h m (by simp)
    unfold setOffsets
    rw [if_neg (by omega), h3, h4, ih (fun x hx => h x (by simp [hx]))]
    simp [Res.ofOption, offsetsOf, h3, h4]

theorem offsetsOf_forward {text : List Byte} {rs offsets : List (Int × Int)} (hof : OffsetsFine text rs offsets) :
    ∀ (ms : List MR) (last : Int), 0 ≤ last → last ≤ text.length → (∀ m ∈ ms, matchEnd rs m.start ∧ matchEnd rs m.stop ∧ m.start ≤ m.stop) →
    (ms.Pairwise fun a b => a.stop < b.start) →
    (∀ m ∈ ms, ∀ a, offsets[m.start.toNat]? = some a → last ≤ a.1) → Forward text last (offsetsOf offsets ms) := by
  intro ms
  induction ms with
  | nil => intro last h0 h1 _ _ _; exact ⟨h0, h1⟩
  | cons m ms ih =>
    intro last h0 h1 hm hp hl
    obtain ⟨e1, e2, e3⟩ := hm m (by simp)
    have hp' := List.pairwise_cons.1 hp
    obtain ⟨_, a, ha, a1, a2, a3⟩ := hof.known _ e1
    obtain ⟨_, b, hb, b1, b2, b3⟩ := hof.known _ e2
    have hab : a.1 ≤ b.2 := by
      by_cases heq : m.start = m.stop
      · rw [heq] at ha; rw [ha] at hb; cases hb; exact a2
      · have := hof.forward _ _ e1 e2 (by omega) a b ha hb
        omega
    simp only [offsetsOf, List.map_cons, ha, hb, Option.getD_some]
    refine ⟨h0, hl m (by simp) a ha, hab, ?_⟩
    refine ih b.2 (by omega) b3 (fun x hx => hm x (by simp [hx])) hp'.2 ?_
    intro x hx c hc
    exact hof.forward _ _ e2 (hm x (by simp [hx])).1 (hp'.1 x hx) b c hb hc

theorem pureLoop_length {gap : Int} {merge : MR → MR → MR} : ∀ (rs done : List MR) (cur : MR),
    (pureLoop gap merge done cur rs).length ≤ done.length + 1 + rs.length := by
  intro rs
  induction rs with
  | nil => intro done cur; simp [pureLoop]
  | cons r rs ih =>
    intro done cur
    unfold pureLoop
    split
    · have := ih (done ++ [cur]) r
      simp only [List.length_append, List.length_cons, List.length_nil] at this ⊢
      omega
    · rename_i l _
      have := ih done l
      simp only [List.length_cons]
      omega

/-- A field that was stored, not compressed, and whose text is not empty. -/
theorem highlight_stored {Z : Zip} (hZ : Lawful Z) {fdt : List Byte} {s : FI × DocF} (hs : GoodField Z s.1 s.2)
    (hu : isCompressed s.1 = false) (hlt : (joined s.2.data).length < 2 ^ 31) (hne : joined s.2.data ≠ []) {f : LazyF} (h : LInv Z fdt s f)
    {rs offsets : List (Int × Int)} (hfine : ∀ r ∈ rs, r.1 ≤ r.2) (hof : OffsetsFine (joined s.2.data) rs offsets)
    {srt : List MR} (hsort : SortedTo (addedRanges rs) srt) (pre post : List Byte) :
    ∃ out, highlightField Z fdt f { addedRanges rs with matches_ := srt } offsets pre post = .ok out ∧
      Highlighted (joined s.2.data) rs offsets pre post out := by
  have hdne : s.2.data ≠ [] := by intro e; rw [e] at hne; exact hne rfl
  have hlen := plain_len hZ hs hu hlt h hdne
  by_cases hr : rs = []
  · subst hr
    refine ⟨joined s.2.data, ?_, ⟨[], joined s.2.data⟩, [], rfl, rfl, rfl, List.Pairwise.nil, fun p => Iff.rfl, fun i m hm => by simp at hm⟩
    have hpos : 0 < (joined s.2.data).length := List.length_pos_iff.2 hne
    obtain ⟨f', e, i'⟩ := lazyGetBytes_spec hZ hs h 0 f.len (by omega) (fun hc => by rw [hu] at hc; cases hc)
    have hb : bytesOf s.2.data 0 f.len = .ok (joined s.2.data) := by
      unfold bytesOf
      rw [hlen, if_pos ⟨by omega, by omega, by omega⟩]
      simp
    simp only [highlightField, addedRanges_eq, List.length_nil, Nat.lt_irrefl, if_false, e, hb, Res.ok_bind, gt_iff_lt]
    rw [if_pos (plain_len hZ hs hu hlt i' hdne), Res.ok_bind, if_pos (by rw [hlen]; omega)]
  · obtain ⟨mv, ms, c1, c2, c3, c4, c5, _⟩ := C47_breaks_partial rs hr hfine srt hsort
    -- the same ranges, from the loop
    have hstruct : (∀ m ∈ ms, matchEnd rs m.start ∧ matchEnd rs m.stop) ∧ ms.length ≤ rs.length := by
      have hsz := hsort.perm.length_eq
      rw [addedRanges_eq] at hsort c1 hsz
      simp only [List.length_map] at hsz
      cases srt with
      | nil => exact absurd (List.length_eq_zero_iff.1 (by simpa using hsz.symm)) hr
      | cons s₀ srt =>
        have hmem : ∀ x ∈ s₀ :: srt, matchEnd rs x.start ∧ matchEnd rs x.stop ∧ x.start ≤ x.stop := by
          intro x hx
          obtain ⟨r, hr, e⟩ := List.mem_map.1 (hsort.perm.mem_iff.1 hx)
          subst e
          exact ⟨⟨r, hr, .inl rfl⟩, ⟨r, hr, .inr rfl⟩, hfine r hr⟩
        have h0 := (hmem s₀ (by simp)).2.2
        obtain ⟨m, left, e1, e2, e3⟩ := compact_pure breaksBody_is (s₀ := s₀) (s := srt) (s₀' := s₀)
          (by simp [breaksBody, Res.ofOption, show ¬ s₀.stop < s₀.start by omega])
        have hmv : mv = ⟨m, left + 1⟩ := by
          unfold compactWithBreaks at c1
          dsimp only at c1
          rw [← hsz, e1] at c1
          cases c1
          rfl
        subst hmv
        unfold ranges at c2
        rw [if_pos e2] at c2
        cases c2
        rw [e3]
        constructor
        · intro x hx
          obtain ⟨⟨y, hy, hy2⟩, z, hz, hz2⟩ := pureLoop_ends (gap := 0) (merge := mergeBreaks) (fun l r => ⟨rfl, rfl⟩) srt [] s₀ x hx
          rw [hy2, hz2]
          exact ⟨(hmem y (by simpa using hy)).1, (hmem z (by simpa using hz)).2.1⟩
        · have := pureLoop_length (gap := 0) (merge := mergeBreaks) srt [] s₀
          simp only [List.length_nil, List.length_cons] at this hsz
          omega
    obtain ⟨hends, hcount⟩ := hstruct
    have hms : ∀ m ∈ ms, matchEnd rs m.start ∧ matchEnd rs m.stop ∧ m.start ≤ m.stop :=
      fun m hm => ⟨(hends m hm).1, (hends m hm).2, c4 m.view (List.mem_map.2 ⟨m, hm, rfl⟩)⟩
    have hoff : setOffsets offsets ms = .ok (offsetsOf offsets ms) := by
      apply setOffsets_is
      intro m hm
      obtain ⟨e1, e2⟩ := hends m hm
      obtain ⟨p1, a, ha, _⟩ := hof.known _ e1
      obtain ⟨p2, b, hb, _⟩ := hof.known _ e2
      exact ⟨p1, p2, ⟨a, ha⟩, b, hb⟩
    have hpw : ms.Pairwise fun a b => a.stop < b.start := by
      unfold apart at c3
      rw [List.pairwise_map] at c3
      refine c3.imp ?_
      intro a b hab
      simp only [MR.view] at hab
      omega
    have hfw : Forward (joined s.2.data) 0 (offsetsOf offsets ms) := by
      refine offsetsOf_forward hof ms 0 (by omega) (by omega) hms hpw ?_
      intro m hm a ha
      obtain ⟨_, a', ha', h1, _⟩ := hof.known _ (hends m hm).1
      rw [ha] at ha'; cases ha'; exact h1
    obtain ⟨f1, e1, i1⟩ := highlightLoop_spec hZ hs hu hlt pre post (offsetsOf offsets ms) f 0 h hfw
    have hb := hfw.endOf
    have hlen1 := plain_len hZ hs hu hlt i1 hdne
    obtain ⟨f2, e2, _⟩ := copyBytes_spec hZ hs hu hlt i1 (a := endOf 0 (offsetsOf offsets ms)) (b := (joined s.2.data).length)
      hb.1 hb.2 (by omega)
    have hplain := partsOf_plain (joined s.2.data) _ 0 hfw
    have hpl : (partsOf (joined s.2.data) 0 (offsetsOf offsets ms)).length = ms.length := by
      rw [partsOf_length]; simp [offsetsOf]
    refine ⟨_, ?_, ⟨partsOf (joined s.2.data) 0 (offsetsOf offsets ms), span (joined s.2.data) (endOf 0 (offsetsOf offsets ms)) (joined s.2.data).length⟩,
      ms.map MR.view, ?_, rfl, ?_, c3, c5, ?_⟩
    · unfold highlightField
      rw [c1]
      simp only [Res.ok_bind, c2, hoff, e1, hlen1, e2]
      have hsz : (addedRanges rs).size = rs.length := by rw [addedRanges_eq]
      rw [hsz, if_pos (by cases rs with | nil => exact absurd rfl hr | cons => simp), Res.ok_bind, if_pos]
      · rfl
      · rw [List.length_append, tagged_length, hplain, hpl]
        have a1 := span_length (joined s.2.data) (by omega) hb.1 hb.2
        have a2 := span_length (joined s.2.data) hb.1 hb.2 (by omega)
        have hmul : ms.length * (pre.length + post.length) ≤ rs.length * (pre.length + post.length) := Nat.mul_le_mul_right _ hcount
        rw [hlen, show (rs.length : Int) * ((pre.length + post.length : Nat) : Int) = ((rs.length * (pre.length + post.length) : Nat) : Int) by push_cast; rfl]
        generalize rs.length * (pre.length + post.length) = A at hmul ⊢
        generalize ms.length * (pre.length + post.length) = B at hmul ⊢
        omega
    · unfold Cuts.plain
      dsimp only
      rw [hplain, span_append _ (by omega) hb.1 hb.2, span_all]
    · simpa using hpl
    · intro i m hm
      rw [List.getElem?_map, Option.map_eq_some_iff] at hm
      obtain ⟨x, hx, rfl⟩ := hm
      have hxm := List.mem_of_getElem? hx
      obtain ⟨_, a, ha, _⟩ := hof.known _ (hends x hxm).1
      obtain ⟨_, b, hb', _⟩ := hof.known _ (hends x hxm).2
      refine ⟨a, b, ha, hb', ?_⟩
      obtain ⟨p, p1, p2, p3⟩ := partsOf_tags (joined s.2.data) _ 0 hfw i a.1 b.2 (by simp [offsetsOf, hx, ha, hb'])
      exact ⟨p, p1, by simpa using p2, p3⟩

/-- **C46.** Take any stored field that is not compressed and whose text is not empty, in any document of an
index; its data joined by spaces are its text. For any set of matches whose term vector offsets lie in the text
and go forward, however they were added and sorted, highlighting the whole field returns the text with tags:
without them it is the text of the field, and the tag pairs enclose, one for one and in order, the text of
ranges that cover exactly the matches. Nothing is written beyond the buffer.

It does not hold of compressed fields (`C46_compressed`), of an empty text (`C46_empty`), nor of offsets that go
back (`C46_overlap`). -/
theorem C46_highlight_partial (Z : Zip) (hZ : Lawful Z) {si ii vi : Nat} {t0 : FIS} (h0 : fisNew si ii vi = .ok t0) (es : List Event)
    (hg : ∀ p ∈ docsOf es, GoodEvent Z (tableAfter t0 es) p.1 p.2) :
    ∃ w, run Z (fwOpen t0) es = .ok w ∧
      (w.fis.fields.length < 2 ^ 31 → w.fdt.length < 2 ^ 31 → (docsOf es).length * 12 < 2 ^ 31 →
      ∀ (k : Nat) (d : Doc) (tvs : List TvIn), (docsOf es)[k]? = some (d, tvs) →
        ∃ fs, frGetLazyDoc (frOpen w.fdt w.fdx w.fis) k = .ok fs ∧
          ∀ (j : Nat) (f : DocF) (fi : FI), (storedFields w.fis d)[j]? = some f → getField w.fis f.name = some fi →
            isCompressed fi = false → joined f.data ≠ [] → (joined f.data).length < 2 ^ 31 →
            ∃ lf, fs[j]? = some lf ∧ ∀ (rs offsets : List (Int × Int)) (sorted : List MR) (pre post : List Byte),
              (∀ r ∈ rs, r.1 ≤ r.2) → OffsetsFine (joined f.data) rs offsets → SortedTo (addedRanges rs) sorted →
              ∃ out, highlightField Z w.fdt lf { addedRanges rs with matches_ := sorted } offsets pre post = .ok out ∧
                Highlighted (joined f.data) rs offsets pre post out) := by
  obtain ⟨w, e1, e2, e3, e4⟩ := written_after hZ (fisNew_wf h0).1 es hg
  refine ⟨w, e1, ?_⟩
  intro hf hl hd k d tvs hk
  have hwt : WF w.fis := by rw [e2]; exact (tableAfter_spec es t0 (fisNew_wf h0).1).1
  obtain ⟨hT, hwi⟩ := tableAfter_spec [] w.fis hwt
  change WF w.fis at hT
  change Within w.fis w.fis at hwi
  obtain ⟨r, _, hwr⟩ := e4 k d tvs hk
  have hgd := (hg (d, tvs) (List.mem_of_getElem? hk)).doc
  rw [← e2] at hgd
  have hkl : k < (docsOf es).length := (List.getElem?_eq_some_iff.1 hk).1
  have hgT := good_later hwr hwi hgd
  obtain ⟨fs, g1, g2, g3⟩ := frGetLazyDoc_spec hZ hwr _ hT hwi hf hgT (by omega) (by omega)
  have hst : storedFields w.fis d = (storedOf w.fis d).map (·.2) := (storedOf_filter d).symm
  refine ⟨fs, g1, ?_⟩
  intro j f fi hj hfi hu hne hlen
  rw [hst, List.getElem?_map, Option.map_eq_some_iff] at hj
  obtain ⟨s, hs, rfl⟩ := hj
  obtain ⟨lf, hl1, hl2⟩ := g3 j s hs
  have hmem := List.mem_of_getElem? hs
  have hfi' : fi = s.1 := by
    unfold storedOf at hmem
    rw [List.mem_filterMap] at hmem
    obtain ⟨f0, hf0, he⟩ := hmem
    cases hg0 : getField w.fis f0.name with
    | none => rw [hg0] at he; cases he
    | some gi =>
      rw [hg0] at he
      simp only at he
      split at he
      · cases he
        rw [hg0] at hfi
        cases hfi
        rfl
      · cases he
  subst hfi'
  refine ⟨lf, hl1, ?_⟩
  intro rs offsets sorted pre post hfine hof hso
  exact highlight_stored hZ (hgT.fields s hmem) hu hlen hne hl2 hfine hof hso pre post

/-! ### A case that meets the hypotheses -/

/-- "one two three", with its words matched at positions 0 and 1, and at 2. -/
def someText : List Byte := [111, 110, 101, 32, 116, 119, 111, 32, 116, 104, 114, 101, 101]

def someEvents : List Event := [.doc [⟨[116], [someText]⟩] []]

/-- Highlight the first field of the first document. -/
def highlightFirst (Z : Zip) (es : List Event) (rs : List (Int × Int)) (offsets : List (Int × Int)) (pre post : List Byte) : Res (List Byte) :=
  run Z (fwOpen sampleTable) es >>= fun w =>
  frGetLazyDoc (frOpen w.fdt w.fdx w.fis) 0 >>= fun fs =>
  Res.ofOption fs[0]? >>= fun lf =>
  highlightField Z w.fdt lf (addedRanges rs) offsets pre post

example : OffsetsFine someText [(0, 1), (2, 2)] [(0, 3), (4, 7), (8, 13)] := by
  have h : ∀ p, matchEnd [(0, 1), (2, 2)] p → p = 0 ∨ p = 1 ∨ p = 2 := by
    rintro p ⟨r, hr, hp⟩
    simp only [List.mem_cons, List.not_mem_nil, or_false] at hr
    rcases hr with rfl | rfl <;> simp at hp <;> omega
  constructor
  · intro p hp
    rcases h p hp with rfl | rfl | rfl
    · exact ⟨by omega, _, rfl, by decide⟩
    · exact ⟨by omega, _, rfl, by decide⟩
    · exact ⟨by omega, _, rfl, by decide⟩
  · intro p q hp hq hlt a b ha hb
    rcases h p hp with rfl | rfl | rfl <;> rcases h q hq with rfl | rfl | rfl <;> first
      | omega
      | (cases ha; cases hb; decide)

example : SortedTo (addedRanges [(0, 1), (2, 2)]) (addedRanges [(0, 1), (2, 2)]).matches_ := ⟨List.Perm.refl _, by decide⟩

/-- `<one two> <three>`. -/
example : highlightFirst plusOne someEvents [(0, 1), (2, 2)] [(0, 3), (4, 7), (8, 13)] [60] [62] =
    .ok ([60] ++ [111, 110, 101, 32, 116, 119, 111] ++ [62, 32, 60] ++ [116, 104, 114, 101, 101] ++ [62]) := by decide +kernel

theorem someEvents_good : ∀ p ∈ docsOf someEvents, GoodEvent plusOne (tableAfter sampleTable someEvents) p.1 p.2 := by
  intro p hp
  simp only [someEvents, docsOf, List.mem_cons, List.not_mem_nil, or_false] at hp
  subst hp
  refine ⟨⟨by decide, by decide, ?_⟩, by simp⟩
  intro s hs
  have hm := (storedOf_mem (tableAfter_spec someEvents sampleTable (fisNew_wf (s := 1) (i := 3) (v := 0) rfl).1).1 hs).2.2.1
  simp only [List.mem_cons, List.not_mem_nil, or_false] at hm
  rw [hm]
  refine ⟨by decide, ?_⟩
  intro x hx
  simp only [List.mem_cons, List.not_mem_nil, or_false] at hx
  subst hx
  unfold GoodData zipBuffer plusOne
  split
  · simp [someText]
  · simp [someText]

example : ∃ w, run plusOne (fwOpen sampleTable) someEvents = .ok w :=
  let ⟨w, h, _⟩ := C46_highlight_partial plusOne plusOne_lawful (si := 1) (ii := 3) (vi := 0) rfl someEvents someEvents_good
  ⟨w, h⟩

/-! ### Where the code does not do it -/

/-- A compression good at one text. -/
def goodAtOne : Zip := ⟨fun d => if d = someText then [0, 0] else 1 :: d,
  fun z => match z with | [] => none | b :: d => if b = 0 then some someText else some d⟩

theorem goodAtOne_lawful : Lawful goodAtOne := by
  intro d
  by_cases h : d = someText
  · simp [goodAtOne, h]
  · simp [goodAtOne, h]

/-- A compressed field with the text: highlighting it writes beyond the buffer, with and without matches,
because the buffer is allocated for the compressed length. -/
theorem C46_compressed :
    highlightFirst goodAtOne (packedDoc someText) [(0, 1), (2, 2)] [(0, 3), (4, 7), (8, 13)] [60] [62] = .ub ∧
    highlightFirst goodAtOne (packedDoc someText) [] [] [60] [62] = .ub := by decide +kernel

/-- An empty text: highlighting it without matches raises an error. -/
theorem C46_empty : highlightFirst plusOne [.doc [⟨[116], [[]]⟩] []] [] [] [60] [62] = .raise .io := by decide +kernel

/-- Two tokens that overlap, as those of a hyphenated word do, at different positions: highlighting both raises
an error. -/
theorem C46_overlap : highlightFirst plusOne someEvents [(0, 0), (1, 1)] [(0, 7), (4, 7)] [60] [62] = .raise .io := by decide +kernel

#print axioms C46_highlight_partial
#print axioms C46_compressed
#print axioms C46_empty
#print axioms C46_overlap
end Ferret.Props
