import Verif.Lemmas.FieldsRun

/-!
C18: stored fields round-trip. A history describes fields and adds documents (with or without term
vectors) in any order; a reader opened on the files, with the table of fields then or at any later
time, gives for each document exactly its stored fields, in order, with their data.
-/

namespace Ferret.Props
open Ferret Ferret.Spec Ferret.Fis Ferret.Fields

/-- The stored fields of a document, in order. -/
def storedFields (t : FIS) (d : Doc) : Doc := d.filter fun f => (getField t f.name).any isStored

/-- What is known of each document after a history. -/
theorem written_after {Z : Zip} (hZ : Lawful Z) {t0 : FIS} (h0 : WF t0) (es : List Event)
    (hg : ∀ p ∈ docsOf es, GoodEvent Z (tableAfter t0 es) p.1 p.2) :
    ∃ w, run Z (fwOpen t0) es = .ok w ∧ w.fis = tableAfter t0 es ∧ w.fdx.length = 12 * (docsOf es).length ∧
      ∀ (k : Nat) (d : Doc) (tvs : List TvIn), (docsOf es)[k]? = some (d, tvs) → ∃ r, resolve w.fis tvs = .ok r ∧ Written Z w k d r := by
  have := run_spec hZ es (fwOpen t0) [] h0 rfl (by simp) hg
  simpa [fwOpen] using this

theorem good_later {Z : Zip} {w : FW} {k : Nat} {d : Doc} {r : List TvE} (hw : Written Z w k d r) {T : FIS} (hT : Within w.fis T)
    (h : GoodDoc Z w.fis d) : GoodDoc Z T d := by
  obtain ⟨t, _, _, _, _, b, c, _⟩ := hw
  refine ⟨h.names, h.few, ?_⟩
  rw [storedOf_within (b.trans hT) d c]
  have := h.fields
  rwa [storedOf_within b d c] at this

/-- C18 from any consistent table of fields. -/
theorem stored_wf (Z : Zip) (hZ : Lawful Z) {t0 : FIS} (h0 : WF t0) (es : List Event)
    (hg : ∀ p ∈ docsOf es, GoodEvent Z (tableAfter t0 es) p.1 p.2) :
    ∃ w, run Z (fwOpen t0) es = .ok w ∧ w.fis = tableAfter t0 es ∧
      ∀ more : List Event, (tableAfter w.fis more).fields.length < 2 ^ 31 →
      w.fdt.length < 2 ^ 64 → (docsOf es).length * 12 < 2 ^ 31 →
      let fr := frOpen w.fdt w.fdx (tableAfter w.fis more)
      fr.size = (docsOf es).length ∧
      ∀ (k : Nat) (d : Doc) (tvs : List TvIn), (docsOf es)[k]? = some (d, tvs) →
        frGetDoc Z fr k = .ok (storedFields fr.fis d) := by
  obtain ⟨w, e1, e2, e3, e4⟩ := written_after hZ h0 es hg
  refine ⟨w, e1, e2, ?_⟩
  intro more hf hl hd
  have hwt : WF w.fis := by rw [e2]; exact (tableAfter_spec es t0 h0).1
  obtain ⟨hT, hwi⟩ := tableAfter_spec more w.fis hwt
  refine ⟨?_, ?_⟩
  · simp only [frOpen, e3]; omega
  · intro k d tvs hk
    obtain ⟨r, _, hwr⟩ := e4 k d tvs hk
    have hgd := (hg (d, tvs) (List.mem_of_getElem? hk)).doc
    rw [← e2] at hgd
    have hkl : k < (docsOf es).length := by
      rw [List.getElem?_eq_some_iff] at hk
      exact hk.1
    rw [frGetDoc_spec hZ hwr _ hT hwi hf (good_later hwr hwi hgd) hl (by omega), storedOf_filter]
    rfl

/-- **C18.** Every history of documents whose compressed data are shorter than the library's buffer
(16348 bytes, before and after compression) is written, and every document is read back with exactly
its stored fields, in order, each with exactly its data. -/
theorem c18_round_trip_partial (Z : Zip) (hZ : Lawful Z) {s i v : Nat} {t0 : FIS} (h0 : fisNew s i v = .ok t0) (es : List Event)
    (hg : ∀ p ∈ docsOf es, GoodEvent Z (tableAfter t0 es) p.1 p.2) :
    ∃ w, run Z (fwOpen t0) es = .ok w ∧ w.fis = tableAfter t0 es ∧
      ∀ more : List Event, (tableAfter w.fis more).fields.length < 2 ^ 31 →
      w.fdt.length < 2 ^ 64 → (docsOf es).length * 12 < 2 ^ 31 →
      let fr := frOpen w.fdt w.fdx (tableAfter w.fis more)
      fr.size = (docsOf es).length ∧
      ∀ (k : Nat) (d : Doc) (tvs : List TvIn), (docsOf es)[k]? = some (d, tvs) →
        frGetDoc Z fr k = .ok (storedFields fr.fis d) :=
  stored_wf Z hZ (fisNew_wf h0).1 es hg

/-! ### Lazy documents -/

/-- The calls on a lazy field. -/
inductive LazyCall where
  | data (i : Int)
  | bytes (start len : Int)

/-- One call: the field afterwards and what is returned. -/
def lazyCall (Z : Zip) (fdt : List Byte) (f : LazyF) : LazyCall → Res (LazyF × Res (Option (List Byte)))
  | .data i => lazyGetData Z fdt f i >>= fun r => .ok (r.1, .ok r.2)
  | .bytes s l => lazyGetBytes Z fdt f s l >>= fun r => .ok (r.1, r.2 >>= fun b => .ok (some b))

/-- A sequence of calls on one lazy field. -/
def lazySession (Z : Zip) (fdt : List Byte) : LazyF → List LazyCall → Res (List (Res (Option (List Byte))))
  | _, [] => .ok []
  | f, c :: cs =>
    lazyCall Z fdt f c >>= fun r =>
    lazySession Z fdt r.1 cs >>= fun q => .ok (r.2 :: q)

/-- What a call should return. -/
def lazyAnswer (ds : List (List Byte)) : LazyCall → Res (Option (List Byte))
  | .data i => .ok (if 0 ≤ i then ds[i.toNat]? else none)
  | .bytes s l => bytesOf ds s l >>= fun b => .ok (some b)

/-- The calls that are answered rightly: sums of `int`s that are `int`s, and, in compressed fields,
not starting on a separator. -/
def FineCall (fi : FI) (ds : List (List Byte)) : LazyCall → Prop
  | .data _ => True
  | .bytes s l => s + l < 2 ^ 31 ∧ (isCompressed fi = true → onSeparator ds s.toNat = false)

theorem lazySession_spec {Z : Zip} (hZ : Lawful Z) {fdt : List Byte} {s : FI × DocF} (hs : GoodField Z s.1 s.2) :
    ∀ (cs : List LazyCall) (f : LazyF), LInv Z fdt s f → (∀ c ∈ cs, FineCall s.1 s.2.data c) →
    lazySession Z fdt f cs = .ok (cs.map (lazyAnswer s.2.data)) := by
  intro cs
  induction cs with
  | nil => intro f _ _; rfl
  | cons c cs ih =>
    intro f h hc
    have key : ∃ f', lazyCall Z fdt f c = .ok (f', lazyAnswer s.2.data c) ∧ LInv Z fdt s f' := by
      cases c with
      | data i =>
        obtain ⟨f', e, h', _⟩ := lazyGetData_spec hZ hs h i
        refine ⟨f', ?_, h'⟩
        simp only [lazyCall, e, Res.ok_bind]
        rfl
      | bytes st l =>
        have := hc (.bytes st l) (by simp)
        obtain ⟨f', e, h'⟩ := lazyGetBytes_spec hZ hs h st l this.1 this.2
        refine ⟨f', ?_, h'⟩
        simp only [lazyCall, e, Res.ok_bind]
        rfl
    obtain ⟨f', e, h'⟩ := key
    simp only [lazySession, e, Res.ok_bind, ih f' h' (fun x hx => hc x (by simp [hx])), List.map_cons]

/-- C18, lazy documents, from any consistent table of fields. -/
theorem lazy_wf (Z : Zip) (hZ : Lawful Z) {t0 : FIS} (h0 : WF t0) (es : List Event)
    (hg : ∀ p ∈ docsOf es, GoodEvent Z (tableAfter t0 es) p.1 p.2) :
    ∃ w, run Z (fwOpen t0) es = .ok w ∧ w.fis = tableAfter t0 es ∧
      ∀ more : List Event, (tableAfter w.fis more).fields.length < 2 ^ 31 →
      w.fdt.length < 2 ^ 64 → (docsOf es).length * 12 < 2 ^ 31 →
      let fr := frOpen w.fdt w.fdx (tableAfter w.fis more)
      ∀ (k : Nat) (d : Doc) (tvs : List TvIn), (docsOf es)[k]? = some (d, tvs) →
        ∃ fs, frGetLazyDoc fr k = .ok fs ∧ fs.map (·.name) = (storedFields fr.fis d).map (·.name) ∧
          ∀ (j : Nat) (f : DocF), (storedFields fr.fis d)[j]? = some f →
            ∃ lf, fs[j]? = some lf ∧ lf.data.length = f.data.length ∧
              ∀ fi, getField fr.fis f.name = some fi → ∀ calls : List LazyCall, (∀ c ∈ calls, FineCall fi f.data c) →
                lazySession Z w.fdt lf calls = .ok (calls.map (lazyAnswer f.data)) := by
  obtain ⟨w, e1, e2, e3, e4⟩ := written_after hZ h0 es hg
  refine ⟨w, e1, e2, ?_⟩
  intro more hf hl hd fr k d tvs hk
  have hwt : WF w.fis := by rw [e2]; exact (tableAfter_spec es t0 h0).1
  obtain ⟨hT, hwi⟩ := tableAfter_spec more w.fis hwt
  obtain ⟨r, _, hwr⟩ := e4 k d tvs hk
  have hgd := (hg (d, tvs) (List.mem_of_getElem? hk)).doc
  rw [← e2] at hgd
  have hkl : k < (docsOf es).length := by
    rw [List.getElem?_eq_some_iff] at hk
    exact hk.1
  have hgT := good_later hwr hwi hgd
  obtain ⟨fs, g1, g2, g3⟩ := frGetLazyDoc_spec hZ hwr _ hT hwi hf hgT hl (by omega)
  have hst : storedFields fr.fis d = (storedOf (tableAfter w.fis more) d).map (·.2) := (storedOf_filter d).symm
  refine ⟨fs, g1, ?_, ?_⟩
  · rw [hst]
    apply List.ext_getElem?
    intro j
    simp only [List.getElem?_map]
    cases hj : (storedOf (tableAfter w.fis more) d)[j]? with
    | none =>
      rw [List.getElem?_eq_none_iff] at hj
      rw [List.getElem?_eq_none (by omega)]
      rfl
    | some s =>
      obtain ⟨f, hf1, hf2⟩ := g3 j s hj
      rw [hf1]
      simp only [Option.map_some]
      rw [hf2.name, (storedOf_mem hT (List.mem_of_getElem? hj)).2.1]
  · intro j f hj
    rw [hst, List.getElem?_map] at hj
    cases hs : (storedOf (tableAfter w.fis more) d)[j]? with
    | none => rw [hs] at hj; cases hj
    | some s =>
      rw [hs] at hj
      simp only [Option.map_some, Option.some.injEq] at hj
      subst hj
      obtain ⟨lf, hl1, hl2⟩ := g3 j s hs
      have hmem := List.mem_of_getElem? hs
      refine ⟨lf, hl1, hl2.size, ?_⟩
      intro fi hfi calls hcalls
      have hfi' : fi = s.1 := by
        unfold storedOf at hmem
        rw [List.mem_filterMap] at hmem
        obtain ⟨f0, hf0, he⟩ := hmem
        change getField (tableAfter w.fis more) s.2.name = some fi at hfi
        cases hg0 : getField (tableAfter w.fis more) f0.name with
        | none => rw [hg0] at he; cases he
        | some gi =>
          rw [hg0] at he
          simp only at he
          split at he
          · cases he
            rw [hg0] at hfi
            cases hfi
            rfl
          · cases he
      subst hfi'
      exact lazySession_spec hZ (hgT.fields s hmem) calls lf hl2 hcalls

/-- **C18, lazily.** The lazy document has the same fields, and any sequence of calls on one of them
returns the data, or the bytes of the data joined by spaces, that was stored (an error when asked
for bytes that are not there); except that in a compressed field the bytes asked for may not start
on a separator. -/
theorem c18_lazy_partial (Z : Zip) (hZ : Lawful Z) {s i v : Nat} {t0 : FIS} (h0 : fisNew s i v = .ok t0) (es : List Event)
    (hg : ∀ p ∈ docsOf es, GoodEvent Z (tableAfter t0 es) p.1 p.2) :
    ∃ w, run Z (fwOpen t0) es = .ok w ∧ w.fis = tableAfter t0 es ∧
      ∀ more : List Event, (tableAfter w.fis more).fields.length < 2 ^ 31 →
      w.fdt.length < 2 ^ 64 → (docsOf es).length * 12 < 2 ^ 31 →
      let fr := frOpen w.fdt w.fdx (tableAfter w.fis more)
      ∀ (k : Nat) (d : Doc) (tvs : List TvIn), (docsOf es)[k]? = some (d, tvs) →
        ∃ fs, frGetLazyDoc fr k = .ok fs ∧ fs.map (·.name) = (storedFields fr.fis d).map (·.name) ∧
          ∀ (j : Nat) (f : DocF), (storedFields fr.fis d)[j]? = some f →
            ∃ lf, fs[j]? = some lf ∧ lf.data.length = f.data.length ∧
              ∀ fi, getField fr.fis f.name = some fi → ∀ calls : List LazyCall, (∀ c ∈ calls, FineCall fi f.data c) →
                lazySession Z w.fdt lf calls = .ok (calls.map (lazyAnswer f.data)) :=
  lazy_wf Z hZ (fisNew_wf h0).1 es hg

/-! ### A case that meets the hypotheses -/

/-- A compression that adds a byte. -/
def plusOne : Zip := ⟨fun d => d ++ [0], fun z => if z = [] then none else some z.dropLast⟩

theorem plusOne_lawful : Lawful plusOne := by
  intro d
  simp [plusOne]

/-- A table whose new fields are stored, a field that is stored compressed and one that is not stored. -/
def sampleEvents : List Event :=
  [.doc [⟨[116], [[97, 98], [], [99]]⟩] [],
   .field ⟨[122], boostOne, 1 ||| 2, 0⟩,
   .field ⟨[110], boostOne, 4, 0⟩,
   .doc [⟨[110], [[97]]⟩, ⟨[122], [[97, 98], [99, 100]]⟩, ⟨[117], []⟩, ⟨[116], [[32]]⟩] [⟨[110], [⟨[97], [0]⟩], []⟩],
   .doc [] []]

def sampleTable : FIS := ⟨1, 3, 0, []⟩

theorem sampleEvents_good : ∀ p ∈ docsOf sampleEvents, GoodEvent plusOne (tableAfter sampleTable sampleEvents) p.1 p.2 := by
  have hdata : ∀ (fi : FI) (d : List Byte), d.length < 100 → GoodData plusOne fi d := by
    intro fi d h
    unfold GoodData zipBuffer plusOne
    split
    · simp; omega
    · omega
  have hdoc : ∀ d : Doc, (d.map (·.name)).Nodup → d.length < 100 → (∀ f ∈ d, f.data.length < 100 ∧ ∀ x ∈ f.data, x.length < 100) →
      GoodDoc plusOne (tableAfter sampleTable sampleEvents) d := by
    intro d h1 h2 h3
    refine ⟨h1, by omega, ?_⟩
    intro s hs
    have hm := (storedOf_mem (tableAfter_spec sampleEvents sampleTable (fisNew_wf (s := 1) (i := 3) (v := 0) rfl).1).1 hs).2.2.1
    exact ⟨by have := (h3 _ hm).1; omega, fun x hx => hdata _ _ ((h3 _ hm).2 x hx)⟩
  intro p hp
  simp only [sampleEvents, docsOf, List.mem_cons, List.not_mem_nil, or_false] at hp
  rcases hp with rfl | rfl | rfl
  · exact ⟨hdoc _ (by decide) (by decide) (by decide), by simp⟩
  · exact ⟨hdoc _ (by decide) (by decide) (by decide), by simp⟩
  · exact ⟨hdoc _ (by decide) (by decide) (by decide), by simp⟩

example : ∃ w, run plusOne (fwOpen sampleTable) sampleEvents = .ok w ∧ w.fis = tableAfter sampleTable sampleEvents :=
  let ⟨w, h1, h2, _⟩ := c18_round_trip_partial plusOne plusOne_lawful (s := 1) (i := 3) (v := 0) rfl sampleEvents sampleEvents_good
  ⟨w, h1, h2⟩

/-- The second document comes back without the field that is not stored. -/
example : (run plusOne (fwOpen sampleTable) sampleEvents >>= fun w => frGetDoc plusOne (frOpen w.fdt w.fdx w.fis) 1) =
    .ok [⟨[122], [[97, 98], [99, 100]]⟩, ⟨[117], []⟩, ⟨[116], [[32]]⟩] := by decide +kernel

/-- Calls on the lazy fields of the second document. -/
example : (run plusOne (fwOpen sampleTable) sampleEvents >>= fun w =>
      frGetLazyDoc (frOpen w.fdt w.fdx w.fis) 1 >>= fun fs =>
      Res.ofOption fs[0]? >>= fun lf =>
      lazySession plusOne w.fdt lf [.bytes 1 3, .data 1, .data 2, .bytes 4 2, .bytes 3 2]) =
    .ok [.ok (some [98, 32, 99]), .ok (some [99, 100]), .ok none, .raise .io, .ok (some [99, 100])] := by decide +kernel

/-! ### Where the code does not do it -/

/-- A document with one field, stored compressed. -/
def packedDoc (d : List Byte) : List Event := [.field ⟨[122], boostOne, 1 ||| 2, 0⟩, .doc [⟨[122], [d]⟩] []]

/-- Whatever the compression: data that compress to 16348 bytes or more cannot be written; the loop
that writes them does not end. -/
theorem c18_compress_ub (Z : Zip) (d : List Byte) (h : zipBuffer ≤ (Z.zip d).length) :
    run Z (fwOpen sampleTable) (packedDoc d) = .ub := by
  have : writeZipped Z d = .ub := by
    unfold writeZipped
    rw [if_neg (by omega)]
  simp [run, packedDoc, fwOpen, sampleTable, addField, getField, resolve, addDocument, fwAddDoc, countStored, getOrAdd,
    writeFields, isStored, isCompressed, writeData, this, afterDoc]

/-- Whatever the compression: data of 16348 bytes or more that compress to fewer are written, and
cannot be read; the loop that reads them does not end. -/
theorem c18_decompress_ub (Z : Zip) (hZ : Lawful Z) (d : List Byte) (h : zipBuffer ≤ d.length) (hz : (Z.zip d).length < zipBuffer) :
    ∃ w, run Z (fwOpen sampleTable) (packedDoc d) = .ok w ∧ frGetDoc Z (frOpen w.fdt w.fdx w.fis) 0 = .ub := by
  have hw : writeZipped Z d = .ok (Z.zip d) := by
    unfold writeZipped
    rw [if_pos hz]
  have hp : 0 < (Z.zip d).length := List.length_pos_iff.2 (hZ d).2
  have ht : toU 4 (((Z.zip d).length : Int) - 1) = (Z.zip d).length - 1 := by
    have : ((Z.zip d).length : Int) - 1 = (((Z.zip d).length - 1 : Nat) : Int) := by omega
    rw [this, toU_nat]
    unfold zipBuffer at hz
    omega
  have e : run Z (fwOpen sampleTable) (packedDoc d) = .ok
      ⟨vint 1 ++ (vint 0 ++ (vint 1 ++ (vint ((Z.zip d).length - 1) ++ (Z.zip d ++ [0])))),
       beBytes 8 0 ++ beBytes 4 (((vint 1 ++ (vint 0 ++ (vint 1 ++ (vint ((Z.zip d).length - 1) ++ Z.zip d)))).length - 0) % 2 ^ 32),
       ⟨1, 3, 0, [⟨[122], boostOne, 1 ||| 2, 0⟩]⟩, 0, []⟩ := by
    simp [run, packedDoc, fwOpen, sampleTable, addField, getField, resolve, addDocument, fwAddDoc, countStored, getOrAdd,
      writeFields, isStored, isCompressed, writeData, hw, ht, afterDoc, fwWriteTvIndex]
    rfl
  refine ⟨_, e, ?_⟩
  unfold frGetDoc docStart frOpen
  dsimp only
  rw [if_pos (by decide), show (0 : Nat) * 12 = 0 from rfl, List.drop_zero, rdBE_beBytes 8 0 0 _ (by decide), Res.ok_bind, Res.ok_bind]
  dsimp only
  rw [show 0 * 256 ^ 8 + 0 = 0 from rfl, List.drop_zero, rdInt_vint 1 (by decide), Res.ok_bind]
  simp only [readHeads]
  rw [rdInt_vint 0 (by decide), Res.ok_bind]
  simp only [byNumber, List.getElem?_cons_zero, Res.ofOption, Res.ok_bind]
  rw [rdInt_vint 1 (by decide), Res.ok_bind]
  simp only [rdMany]
  unfold zipBuffer at hz
  rw [rdInt_vint _ (by omega)]
  simp only [Res.ok_bind, List.any_nil, Bool.false_eq_true, if_false, List.nil_append, readFields, readData]
  rw [if_pos (by decide), show (Z.zip d).length - 1 + 1 = (Z.zip d).length by omega]
  unfold readZipped
  have hrb : rdBytes (Z.zip d).length (Z.zip d ++ [0]) = .ok (Z.zip d, [0]) := rdBytes_append _ _
  rw [if_neg (by unfold zipBuffer; omega), hrb, Res.ok_bind]
  simp only [(hZ d).1]
  rw [if_neg (by omega)]
  rfl

/-- Bytes of a compressed field that start on a separator: of "ab cd" from place 2 one byte is "c",
not " ". -/
theorem c18_lazy_wrong :
    (run plusOne (fwOpen sampleTable) [.field ⟨[122], boostOne, 1 ||| 2, 0⟩, .doc [⟨[122], [[97, 98], [99, 100]]⟩] []] >>= fun w =>
      frGetLazyDoc (frOpen w.fdt w.fdx w.fis) 0 >>= fun fs =>
      Res.ofOption fs[0]? >>= fun lf =>
      lazySession plusOne w.fdt lf [.bytes 2 1]) = .ok [.ok (some [99])] ∧
    lazyAnswer [[97, 98], [99, 100]] (.bytes 2 1) = .ok (some [32]) := by decide +kernel

#print axioms c18_round_trip_partial
#print axioms c18_lazy_partial
#print axioms c18_compress_ub
#print axioms c18_decompress_ub
#print axioms c18_lazy_wrong
end Ferret.Props
