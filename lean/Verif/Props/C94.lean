import Verif.Lemmas.MultiOpen
import Verif.Props.C23

/-!
C94: a reader opened on the readers of several indexes has the fields of all of them, and under the name of each field the terms, frequencies and norms that they have under that name, whatever the
numbers of the field in each.

Not here: readers of indexes with several segments, which are themselves readers of several; and changes (C93, C95).
-/

namespace Ferret.Props
open Ferret Ferret.Fis Ferret.Expand Ferret.Dict Ferret.MTE Ferret.MOpen
open Ferret.Spec (Name)

/-- The number of the field of that name. -/
def numberOf (t : FIS) (name : Name) : Option Nat := t.fields.findIdx? fun f => decide (f.name = name)

/-- An index: its fields, its segment with the terms of each of its fields. -/
structure Ix where
  fis : FIS
  seg : Seg

/-- It was written: no field twice, and each by its number. -/
structure Ix.OK (x : Ix) : Prop where
  fields : WF x.fis
  seg : WrittenSeg x.seg
  known : ∀ y ∈ x.seg.fields, y.1 < x.fis.fields.length

/-- The terms that the index has in the field of that name. -/
def Ix.terms (x : Ix) (name : Name) : List (Term × TI) :=
  match numberOf x.fis name with
  | none => []
  | some k => ((x.seg.fields.find? fun y => decide (y.1 = k)).map (·.2)).getD []

/-- The terms in index `i`. -/
def termsOf (ixs : List Ix) (name : Name) (i : Nat) : List (Term × TI) :=
  match ixs[i]? with
  | none => []
  | some x => x.terms name

/-- Some index has the field. -/
def SomeHas (subs : List FIS) (name : Name) : Prop := ∃ s ∈ subs, ∃ f ∈ s.fields, f.name = name

/-! ### Proof -/

theorem numberOf_num {t : FIS} (h : WF t) (name : Name) : getFieldNum t name = match numberOf t name with | some k => (k : Int) | none => -1 := by
  unfold numberOf
  cases hi : t.fields.findIdx? fun f => decide (f.name = name) with
  | none =>
    rw [List.findIdx?_eq_none_iff] at hi
    have : getField t name = none := by
      rw [getField_none]
      intro hc
      obtain ⟨f, hf, e⟩ := List.mem_map.1 hc
      have := hi f hf
      simp [e] at this
    unfold getFieldNum
    rw [this]
  | some k =>
    obtain ⟨hk, h1, -⟩ := List.findIdx?_eq_some_iff_getElem.1 hi
    have h2 : t.fields[k].name = name := of_decide_eq_true h1
    have h3 := getField_at h (List.getElem?_eq_getElem hk)
    rw [h2] at h3
    unfold getFieldNum
    rw [h3]
    dsimp only
    rw [h.numbers k hk]

theorem numberOf_lt {t : FIS} {name : Name} {k : Nat} (h : numberOf t name = some k) : k < t.fields.length := (List.findIdx?_eq_some_iff_getElem.1 h).1

/-- What mr_open says about numbers: `f` is the number of the field in the reader. -/
theorem open_numbers {subs : List FIS} (hw : ∀ s ∈ subs, WF s) {x : FIS × Bool} (hx : Merged x (subs.flatMap (·.fields))) {name : Name} {f : Nat} (hf : numberOf x.1 name = some f) :
    let map := if x.2 then some (fieldMap x.1 subs) else none
    (∀ l, FieldOf ⟨l, map⟩ subs.length f) ∧
    ∀ l i s, subs[i]? = some s → (∀ k, numberOf s name = some k → numberIn ⟨l, map⟩ i f = k) ∧ (numberOf s name = none → numberIn ⟨l, map⟩ i f < 0 ∨ s.fields.length ≤ (numberIn ⟨l, map⟩ i f).toNat) := by
  have hlt := numberOf_lt hf
  obtain ⟨hk, h1, -⟩ := List.findIdx?_eq_some_iff_getElem.1 hf
  have hname : x.1.fields[f].name = name := of_decide_eq_true h1
  cases hb : x.2 with
  | true =>
    simp only [if_true]
    refine ⟨fun l => ⟨by omega, fun i hi => ⟨x.1.fields.map fun fi => getFieldNum subs[i] fi.name, ?_, ?_⟩⟩, ?_⟩
    · unfold fieldMap
      rw [List.getElem?_map, List.getElem?_eq_getElem hi]
      rfl
    · rw [List.length_map]; exact hlt
    · intro l i s hs
      have hn : numberIn ⟨l, some (fieldMap x.1 subs)⟩ i f = getFieldNum s name := by
        unfold numberIn fieldMap
        simp only [List.getElem?_map, hs, Option.map_some, Option.bind_some, Int.toNat_natCast, List.getElem?_eq_getElem hlt, hname, Option.getD_some]
      rw [hn, numberOf_num (hw s (List.mem_of_getElem? hs))]
      refine ⟨fun k hk => by rw [hk], fun hk => by rw [hk]; exact Or.inl (by decide)⟩
  | false =>
    simp only [Bool.false_eq_true, if_false]
    refine ⟨fun l => trivial, ?_⟩
    intro l i s hs
    have hn : numberIn ⟨l, none⟩ i f = (f : Int) := rfl
    rw [hn]
    have hsm := List.mem_of_getElem? hs
    have hall : ∀ g ∈ s.fields, getFieldNum x.1 g.name = g.number := fun g hg => hx.same hb g (List.mem_flatMap.2 ⟨s, hsm, hg⟩)
    have hxf : getFieldNum x.1 name = f := by rw [numberOf_num hx.wf, hf]
    constructor
    · intro k hk
      obtain ⟨hk1, hk2, -⟩ := List.findIdx?_eq_some_iff_getElem.1 hk
      have hk3 : s.fields[k].name = name := of_decide_eq_true hk2
      have := hall _ (List.getElem_mem hk1)
      rw [hk3, hxf, (hw s hsm).numbers k hk1] at this
      exact this
    · intro hno
      right
      refine Classical.byContradiction fun hc => ?_
      have hfl : f < s.fields.length := by
        rw [Int.toNat_natCast] at hc
        omega
      -- the field of that number in `s` has that number in the reader, so it is the same field
      have h2 := hall _ (List.getElem_mem hfl)
      rw [(hw s hsm).numbers f hfl] at h2
      have h3 : s.fields[f].name = name := by
        unfold getFieldNum at h2
        cases hg : getField x.1 s.fields[f].name with
        | none => rw [hg] at h2; dsimp only at h2; omega
        | some g =>
          rw [hg] at h2
          obtain ⟨h4, h5⟩ := getField_some hx.wf hg
          have h6 : g.number = f := by dsimp only at h2; omega
          rw [h6, List.getElem?_eq_getElem hlt] at h5
          rw [← h4, ← Option.some.inj h5, hname]
      unfold numberOf at hno
      rw [List.findIdx?_eq_none_iff] at hno
      have := hno _ (List.getElem_mem hfl)
      simp [h3] at this

theorem entries_named {ixs : List Ix} (hok : ∀ x ∈ ixs, x.OK) {y : FIS × Bool} (hy : Merged y ((ixs.map (·.fis)).flatMap (·.fields))) {name : Name} {f : Nat} (hf : numberOf y.1 name = some f) (l : List Sub)
    (i : Nat) (hi : i < ixs.length) :
    termsIn ⟨l, if y.2 then some (fieldMap y.1 (ixs.map (·.fis))) else none⟩ (ixs.map (·.seg)) f i = termsOf ixs name i := by
  obtain ⟨-, hnum⟩ := open_numbers (subs := ixs.map (·.fis)) (by
    intro s hs
    obtain ⟨x, hx, rfl⟩ := List.mem_map.1 hs
    exact (hok x hx).fields) hy hf
  have hx : ixs[i]? = some ixs[i] := List.getElem?_eq_getElem hi
  obtain ⟨h1, h2⟩ := hnum l i ixs[i].fis (by rw [List.getElem?_map, hx]; rfl)
  have hseg : (ixs.map (·.seg))[i]? = some ixs[i].seg := by rw [List.getElem?_map, hx]; rfl
  unfold termsIn termsOf Ix.terms
  rw [hseg, hx]
  dsimp only
  have hk := (hok _ (List.getElem_mem hi)).known
  cases hn : numberOf ixs[i].fis name with
  | some k =>
    rw [h1 k hn]
    dsimp only
    congr 3
    funext y
    rw [decide_eq_decide]
    omega
  | none =>
    dsimp only
    have : ixs[i].seg.fields.find? (fun x => decide ((x.1 : Int) = numberIn ⟨l, if y.2 then some (fieldMap y.1 (ixs.map (·.fis))) else none⟩ i f)) = none := by
      rw [List.find?_eq_none]
      intro z hz
      rw [decide_eq_true_iff]
      intro hc
      have := hk z hz
      rcases h2 hn with h3 | h3 <;> omega
    rw [this]
    rfl

theorem known_iff {subs : List FIS} {x : FIS × Bool} (hx : Merged x (subs.flatMap (·.fields))) (name : Name) : (∃ f, numberOf x.1 name = some f) ↔ SomeHas subs name := by
  have h := hx.names name
  rw [show (∃ f ∈ subs.flatMap (·.fields), f.name = name) ↔ SomeHas subs name by
    constructor
    · rintro ⟨f, hf, e⟩
      obtain ⟨s, hs, hf⟩ := List.mem_flatMap.1 hf
      exact ⟨s, hs, f, hf, e⟩
    · rintro ⟨s, hs, f, hf, e⟩
      exact ⟨f, List.mem_flatMap.2 ⟨s, hs, hf⟩, e⟩] at h
  rw [← h]
  constructor
  · rintro ⟨f, hf⟩
    obtain ⟨hk, h1, -⟩ := List.findIdx?_eq_some_iff_getElem.1 hf
    exact List.mem_map.2 ⟨_, List.getElem_mem hk, of_decide_eq_true h1⟩
  · intro hm
    cases hf : numberOf x.1 name with
    | some f => exact ⟨f, rfl⟩
    | none =>
      unfold numberOf at hf
      rw [List.findIdx?_eq_none_iff] at hf
      obtain ⟨g, hg, e⟩ := List.mem_map.1 hm
      have := hf g hg
      simp [e] at this

/-! ### Theorems -/

/-- **The fields of the reader are those of the indexes.** Opening never fails. No name is there twice, numbers are positions, a name is there if some index has it, and a property (stored, indexed, omitting norms …:
a bit) is there if some index has it for a field of that name. -/
theorem c94_fields (subs : List FIS) : ∃ fis map, mrOpen subs = .ok (fis, map) ∧
    (fis.fields.map (·.name)).Nodup ∧ (∀ i (h : i < fis.fields.length), fis.fields[i].number = i) ∧
    (∀ name, (∃ g ∈ fis.fields, g.name = name) ↔ SomeHas subs name) ∧
    ∀ g ∈ fis.fields, ∀ k, g.bits.testBit k = true ↔ ∃ s ∈ subs, ∃ f ∈ s.fields, f.name = g.name ∧ f.bits.testBit k = true := by
  obtain ⟨x, -, h, e⟩ := mrOpen_ok subs
  refine ⟨_, _, e, h.wf.names, h.wf.numbers, ?_, ?_⟩
  · intro name
    have := h.names name
    rw [List.mem_map] at this
    rw [this]
    constructor
    · rintro ⟨f, hf, e⟩
      obtain ⟨s, hs, hf⟩ := List.mem_flatMap.1 hf
      exact ⟨s, hs, f, hf, e⟩
    · rintro ⟨s, hs, f, hf, e⟩
      exact ⟨f, List.mem_flatMap.2 ⟨s, hs, hf⟩, e⟩
  · intro g hg k
    rw [h.bits g hg k]
    constructor
    · rintro ⟨f, hf, e⟩
      obtain ⟨s, hs, hf⟩ := List.mem_flatMap.1 hf
      exact ⟨s, hs, f, hf, e⟩
    · rintro ⟨s, hs, f, hf, e⟩
      exact ⟨f, List.mem_flatMap.2 ⟨s, hs, hf⟩, e⟩

/-- **Terms by name.** A reader is opened on some indexes. Asked for the number of a field, it refuses if no index has it. Else the terms that it gives for that number are, in order and each once, those that some
index has in the field of that name, and all of them if it is asked until it gives no more. -/
theorem c94_terms_partial (ixs : List Ix) (hok : ∀ x ∈ ixs, x.OK) : ∃ fis map, mrOpen (ixs.map (·.fis)) = .ok (fis, map) ∧ ∀ name,
    (¬ SomeHas (ixs.map (·.fis)) name → irFieldNum fis name = .raise .arg) ∧
    (SomeHas (ixs.map (·.fis)) name → ∃ f, irFieldNum fis name = .ok f ∧ ∀ n, ∃ m outs,
      mteNew ⟨ixs.map (·.seg.sub), map⟩ f none = .ok m ∧ mteRun ⟨ixs.map (·.seg.sub), map⟩ m (List.replicate n .next) = .ok outs ∧ outs.length = n ∧
      (givenTerms outs).Pairwise (· < ·) ∧ (∀ t ∈ givenTerms outs, ∃ x ∈ ixs, ∃ e ∈ x.terms name, e.1 = t) ∧
      (none ∈ outs → ∀ t, t ∈ givenTerms outs ↔ ∃ x ∈ ixs, ∃ e ∈ x.terms name, e.1 = t)) := by
  obtain ⟨y, -, hy, e⟩ := mrOpen_ok (ixs.map (·.fis))
  refine ⟨_, _, e, fun name => ⟨fun hno => ?_, fun hyes => ?_⟩⟩
  · cases hf : numberOf y.1 name with
    | some f => exact absurd ((known_iff hy name).1 ⟨f, hf⟩) hno
    | none =>
      unfold irFieldNum
      rw [numberOf_num hy.wf, hf]
      rfl
  · obtain ⟨f, hf⟩ := (known_iff hy name).2 hyes
    have hwf : ∀ s ∈ ixs.map (·.fis), WF s := by
      intro s hs
      obtain ⟨x, hx, rfl⟩ := List.mem_map.1 hs
      exact (hok x hx).fields
    refine ⟨f, ?_, fun n => ?_⟩
    · unfold irFieldNum
      rw [numberOf_num hy.wf, hf]
      exact if_neg (Int.not_lt.2 (Int.natCast_nonneg f))
    obtain ⟨hof, -⟩ := open_numbers hwf hy hf
    have hof := hof (ixs.map (·.seg.sub))
    rw [List.length_map] at hof
    obtain ⟨m, outs, h1, h2, h3, h4, h5, h6⟩ := c23_sorted_union ⟨ixs.map (·.seg.sub), if y.2 then some (fieldMap y.1 (ixs.map (·.fis))) else none⟩ (ixs.map (·.seg)) (by rw [List.map_map]; rfl) (by
      intro s hs
      obtain ⟨x, hx, rfl⟩ := List.mem_map.1 hs
      exact (hok x hx).seg) f (by rw [List.length_map]; exact hof) n
    have hin : ∀ t, InSome (ixs.map (·.seg)).length (termsIn ⟨ixs.map (·.seg.sub), if y.2 then some (fieldMap y.1 (ixs.map (·.fis))) else none⟩ (ixs.map (·.seg)) f) t ↔ ∃ x ∈ ixs, ∃ e ∈ x.terms name, e.1 = t := by
      intro t
      unfold InSome
      rw [List.length_map]
      constructor
      · rintro ⟨i, hi, e, he, rfl⟩
        rw [entries_named hok hy hf _ i hi] at he
        unfold termsOf at he
        rw [List.getElem?_eq_getElem hi] at he
        exact ⟨_, List.getElem_mem hi, e, he, rfl⟩
      · rintro ⟨x, hx, e, he, rfl⟩
        obtain ⟨i, hi, rfl⟩ := List.getElem_of_mem hx
        refine ⟨i, hi, e, ?_, rfl⟩
        rw [entries_named hok hy hf _ i hi]
        unfold termsOf
        rw [List.getElem?_eq_getElem hi]
        exact he
    exact ⟨m, outs, h1, h2, h3, h4, fun t ht => (hin t).1 (h5 t ht), fun hn t => (h6 hn t).trans (hin t)⟩

/-- The frequency of a term in the field of that name in an index. -/
def Ix.freq (x : Ix) (name : Name) (t : Term) : Nat := (((x.terms name).find? fun e => decide (e.1 = t)).map (·.2.docFreq)).getD 0

theorem holders_sum (T : Nat → List (Term × TI)) (t : Term) : ∀ n, ((holders n T t).map (·.2.docFreq)).sum = ((List.range n).map fun i => (((T i).find? fun e => decide (e.1 = t)).map (·.2.docFreq)).getD 0).sum := by
  intro n
  induction n with
  | zero => rfl
  | succ n ih => rw [holders_succ, ih, List.range_succ, List.map_append, List.sum_append]; simp

/-- **Frequencies by name.** The document frequency of a term in a field, asked for in any order and any number of times, is the sum of the frequencies in the fields of that name in the indexes. -/
theorem c94_doc_freq_partial (ixs : List Ix) (hok : ∀ x ∈ ixs, x.OK) (qs : List (Name × Term)) (hq : ∀ q ∈ qs, SomeHas (ixs.map (·.fis)) q.1) :
    ∃ fis map, ∃ nums : List Int, mrOpen (ixs.map (·.fis)) = .ok (fis, map) ∧ nums.length = qs.length ∧ (∀ (j : Nat) q f, qs[j]? = some q → nums[j]? = some f → irFieldNum fis q.1 = .ok f) ∧
      freqRun ⟨ixs.map (·.seg.sub), map⟩ (ixs.map fun _ => tirOpen) (nums.zip (qs.map (·.2))) = .ok (qs.map fun q => (ixs.map fun x => x.freq q.1 q.2).sum) := by
  obtain ⟨y, -, hy, e⟩ := mrOpen_ok (ixs.map (·.fis))
  have hwf : ∀ s ∈ ixs.map (·.fis), WF s := by
    intro s hs
    obtain ⟨x, hx, rfl⟩ := List.mem_map.1 hs
    exact (hok x hx).fields
  have hnum : ∀ q ∈ qs, ∃ f : Nat, numberOf y.1 q.1 = some f ∧ getFieldNum y.1 q.1 = f := by
    intro q hqm
    obtain ⟨f, hf⟩ := (known_iff hy q.1).2 (hq q hqm)
    exact ⟨f, hf, by rw [numberOf_num hy.wf, hf]⟩
  refine ⟨_, _, qs.map fun q => getFieldNum y.1 q.1, e, by simp, ?_, ?_⟩
  · intro j q f hj hf
    rw [List.getElem?_map, hj] at hf
    obtain ⟨f', h1, h2⟩ := hnum q (List.mem_of_getElem? hj)
    have : getFieldNum y.1 q.1 = f := Option.some.inj hf
    unfold irFieldNum
    rw [this]
    exact if_neg (by omega)
  · have hzip : (qs.map fun q => getFieldNum y.1 q.1).zip (qs.map (·.2)) = qs.map fun q => (getFieldNum y.1 q.1, q.2) := by
      rw [List.zip_map']
    rw [hzip]
    have := c23_doc_freq ⟨ixs.map (·.seg.sub), if y.2 then some (fieldMap y.1 (ixs.map (·.fis))) else none⟩ (ixs.map (·.seg)) (by rw [List.map_map]; rfl) (by
      intro s hs
      obtain ⟨x, hx, rfl⟩ := List.mem_map.1 hs
      exact (hok x hx).seg) (qs.map fun q => (getFieldNum y.1 q.1, q.2)) (by
        intro q hqm
        obtain ⟨q', hq', rfl⟩ := List.mem_map.1 hqm
        obtain ⟨f, h1, h2⟩ := hnum q' hq'
        obtain ⟨hof, -⟩ := open_numbers hwf hy h1
        have hof := hof (ixs.map (·.seg.sub))
        rw [List.length_map] at hof ⊢
        dsimp only
        rw [h2]
        exact hof)
    rw [show (ixs.map (·.seg)).map (fun _ => tirOpen) = ixs.map fun _ => tirOpen by rw [List.map_map]; rfl] at this
    rw [this, List.map_map]
    congr 1
    refine List.map_congr_left fun q hqm => ?_
    obtain ⟨f, h1, h2⟩ := hnum q hqm
    dsimp only [Function.comp]
    rw [h2, holders_sum, List.length_map]
    have : ixs.map (fun x => x.freq q.1 q.2) = (List.range ixs.length).map fun i => (((termsOf ixs q.1 i).find? fun e => decide (e.1 = q.2)).map (·.2.docFreq)).getD 0 := by
      refine List.ext_getElem (by simp) fun i hi hi' => ?_
      rw [List.getElem_map, List.getElem_map, List.getElem_range]
      unfold termsOf
      rw [List.getElem?_eq_getElem (by simpa using hi)]
      rfl
    rw [this]
    congr 1
    refine List.map_congr_left fun i hi => ?_
    rw [entries_named hok hy h1 _ i (List.mem_range.1 hi)]

/-! ### Norms -/

/-- What a reader of one index gives as the norms of the field of that name: what it gives for the number of the field, 0 if it has no such field. -/
def normsNamed (fis : FIS) (B : Nat → List Byte) (size : Nat) (name : Name) : List Byte :=
  match numberOf fis name with
  | some k => B k
  | none => List.replicate size 0

theorem fill_named {m : Norms.Mr} {f : Nat} {N : Nat → List Byte} : ∀ (rs : List Norms.Sr) (i off : Nat) (done : List Byte),
    (∀ (j : Nat) r, rs[j]? = some r → ∃ k : Int, m.fieldNum (i + j) f = .ok k ∧ (N (i + j)).length = r.size ∧
      (0 ≤ k → Norms.srInto r k.toNat = .ok (N (i + j))) ∧ (k < 0 → N (i + j) = List.replicate r.size 0)) → done.length = off →
    Norms.mrFill m f rs i off (done ++ List.replicate (rs.map Norms.Sr.size).sum 0) = .ok (done ++ ((List.range' i rs.length).flatMap N))
  | [], i, off, done, _, _ => by
    unfold Norms.mrFill
    simp
  | r :: rs, i, off, done, h, hd => by
    obtain ⟨k, h1, h2, h3, h4⟩ := h 0 r rfl
    rw [Nat.add_zero] at h1 h2 h3 h4
    have hrest : ∀ (j : Nat) r, rs[j]? = some r → ∃ k : Int, m.fieldNum (i + 1 + j) f = .ok k ∧ (N (i + 1 + j)).length = r.size ∧
        (0 ≤ k → Norms.srInto r k.toNat = .ok (N (i + 1 + j))) ∧ (k < 0 → N (i + 1 + j) = List.replicate r.size 0) := by
      intro j r' hj
      have := h (j + 1) r' hj
      rwa [show i + (j + 1) = i + 1 + j by omega] at this
    have ih := fill_named rs (i + 1) (off + r.size) (done ++ N i) hrest (by rw [List.length_append, hd, h2])
    have hgoal : done ++ (List.range' i (r :: rs).length).flatMap N = done ++ N i ++ (List.range' (i + 1) rs.length).flatMap N := by
      rw [List.length_cons, List.range'_succ, List.flatMap_cons, List.append_assoc]
    rw [hgoal]
    unfold Norms.mrFill
    rw [h1, Res.ok_bind]
    by_cases hk : k < 0
    · rw [if_pos hk]
      rw [h4 hk, List.append_assoc] at ih
      rw [h4 hk]
      rw [show List.replicate ((r :: rs).map Norms.Sr.size).sum (0 : Byte) = List.replicate r.size 0 ++ List.replicate (rs.map Norms.Sr.size).sum 0 by
        rw [List.map_cons, List.sum_cons, List.replicate_append_replicate]]
      exact ih
    · rw [if_neg hk, h3 (by omega), Res.ok_bind]
      have hw : Norms.writeAt (done ++ List.replicate ((r :: rs).map Norms.Sr.size).sum 0) off (N i) = .ok (done ++ N i ++ List.replicate (rs.map Norms.Sr.size).sum 0) := by
        unfold Norms.writeAt
        rw [if_pos (by
          rw [List.length_append, List.length_replicate, hd, h2, List.map_cons, List.sum_cons]; omega)]
        congr 1
        have e1 : (done ++ List.replicate ((r :: rs).map Norms.Sr.size).sum (0 : Byte)).take off = done := by rw [← hd, List.take_left]
        have e2 : (done ++ List.replicate ((r :: rs).map Norms.Sr.size).sum (0 : Byte)).drop (off + (N i).length) = List.replicate (rs.map Norms.Sr.size).sum 0 := by
          rw [← hd, List.drop_append, List.drop_replicate, h2, List.map_cons, List.sum_cons]
          rw [List.drop_eq_nil_of_le (by omega), List.nil_append]
          congr 1
          omega
        rw [e1, e2]
      rw [hw, Res.ok_bind]
      exact ih

/-- **Norms by name.** A reader is opened on some indexes with one segment each; `B i k` is what the reader of index `i` gives as the norms of field `k`, which is 0 for all documents if it has no such field (C93).
Then the norms of a field in the reader are, one index after the other, those in the field of that name. -/
theorem c94_norms_partial (ixs : List (FIS × Norms.Sr)) (hw : ∀ x ∈ ixs, WF x.1) (B : Nat → Nat → List Byte)
    (hB : ∀ (i : Nat) x, ixs[i]? = some x → ∀ k, Norms.srInto x.2 k = .ok (B i k) ∧ (B i k).length = x.2.size ∧ (x.1.fields.length ≤ k → B i k = List.replicate x.2.size 0)) :
    ∃ fis map, mrOpen (ixs.map (·.1)) = .ok (fis, map) ∧ ∀ name, SomeHas (ixs.map (·.1)) name → ∃ f : Nat, irFieldNum fis name = .ok f ∧
      ∃ m, Norms.irNorms (.many ⟨ixs.map (·.2), map, fun _ => none, fun _ => 0, false⟩) f =
        .ok ((List.range ixs.length).flatMap (fun i => match ixs[i]? with | some x => normsNamed x.1 (B i) x.2.size name | none => []), m) := by
  obtain ⟨y, -, hy, e⟩ := mrOpen_ok (ixs.map (·.1))
  refine ⟨_, _, e, fun name hyes => ?_⟩
  obtain ⟨f, hf⟩ := (known_iff hy name).2 hyes
  refine ⟨f, ?_, ?_⟩
  · unfold irFieldNum
    rw [numberOf_num hy.wf, hf]
    exact if_neg (Int.not_lt.2 (Int.natCast_nonneg f))
  obtain ⟨hof, hnum⟩ := open_numbers (subs := ixs.map (·.1)) (by
    intro s hs
    obtain ⟨x, hx, rfl⟩ := List.mem_map.1 hs
    exact hw x hx) hy hf
  generalize (if y.2 then some (fieldMap y.1 (ixs.map (·.1))) else none) = map at hof hnum
  have hfn : ∀ i, i < ixs.length → Norms.Mr.fieldNum ⟨ixs.map (·.2), map, fun _ => none, fun _ => 0, false⟩ i f = .ok (numberIn ⟨[], map⟩ i f) := by
    intro i hi
    have hof := hof []
    rw [List.length_map] at hof
    have := fieldNum_ok hof hi
    rw [← this]
    unfold Norms.Mr.fieldNum fieldNum
    cases map with
    | none => rfl
    | some t =>
      dsimp only
      rw [if_neg (by omega)]
      cases t[i]? <;> rfl
  have := fill_named (m := ⟨ixs.map (·.2), map, fun _ => none, fun _ => 0, false⟩) (f := f) (N := fun i => match ixs[i]? with | some x => normsNamed x.1 (B i) x.2.size name | none => []) (ixs.map (·.2)) 0 0 [] (by
    intro j r hj
    rw [List.getElem?_map] at hj
    cases hx : ixs[j]? with
    | none => rw [hx] at hj; cases hj
    | some x =>
      rw [hx] at hj
      cases hj
      have hjl := (List.getElem?_eq_some_iff.1 hx).1
      rw [Nat.zero_add]
      obtain ⟨h1, h2⟩ := hnum [] j x.1 (by rw [List.getElem?_map, hx]; rfl)
      refine ⟨_, hfn j hjl, ?_, ?_, ?_⟩
      · simp only [hx]
        unfold normsNamed
        cases hn : numberOf x.1 name with
        | some k => exact (hB j x hx k).2.1
        | none => simp
      · intro h0
        simp only [hx]
        unfold normsNamed
        cases hn : numberOf x.1 name with
        | some k =>
          rw [h1 k hn]
          exact (hB j x hx k).1
        | none =>
          have h3 : x.1.fields.length ≤ (numberIn ⟨[], map⟩ j f).toNat := by
            rcases h2 hn with h | h
            · omega
            · exact h
          rw [(hB j x hx _).1, (hB j x hx _).2.2 h3]
      · intro h0
        simp only [hx]
        unfold normsNamed
        cases hn : numberOf x.1 name with
        | some k => rw [h1 k hn] at h0; omega
        | none => rfl) rfl
  rw [List.nil_append, List.nil_append, List.length_map, ← List.range_eq_range'] at this
  refine ⟨.many ⟨ixs.map (·.2), map, fun f' => if f' = f then some (0, (List.range ixs.length).flatMap (fun i => match ixs[i]? with | some x => normsNamed x.1 (B i) x.2.size name | none => [])) else none,
    fun f' => if f' = f then 1 else 0, false⟩, ?_⟩
  unfold Norms.irNorms Norms.mrNorms
  dsimp only
  unfold Norms.Mr.max
  dsimp only
  rw [this]
  rfl

/-! ### Examples -/

/-- Two indexes, one with fields a and b, one with b and c. -/
def fisAB : FIS := ⟨0, 0, 0, [⟨[97], boostOne, 4, 0⟩, ⟨[98], boostOne, 1, 1⟩]⟩
def fisBC : FIS := ⟨0, 0, 0, [⟨[98], boostOne, 4, 0⟩, ⟨[99], boostOne, 20, 1⟩]⟩

example : mrOpen [fisAB, fisBC] = .ok (⟨0, 0, 0, [⟨[97], boostOne, 4, 0⟩, ⟨[98], boostOne, 5, 1⟩, ⟨[99], boostOne, 20, 2⟩]⟩, some [[0, 1, -1], [-1, 0, 1]]) := by decide +kernel

/-- No map is needed if the numbers agree. -/
example : mrOpen [fisAB, ⟨0, 0, 0, [⟨[97], boostOne, 1, 0⟩]⟩] = .ok (⟨0, 0, 0, [⟨[97], boostOne, 5, 0⟩, ⟨[98], boostOne, 1, 1⟩]⟩, none) := by decide +kernel

theorem fisAB_wf : WF fisAB := ⟨by decide, by decide, by decide⟩
theorem fisBC_wf : WF fisBC := ⟨by decide, by decide, by decide⟩

/-- Terms of two indexes: "b" is in field b of both, with number 1 in the first and 0 in the second. -/
example : ∃ ixs : List Ix, (∀ x ∈ ixs, x.OK) ∧ SomeHas (ixs.map (·.fis)) [98] ∧ (ixs.map fun x => x.freq [98] [98]) = [2, 3] ∧ (ixs.map fun x => (x.terms [97]).length) = [1, 0] := by
  obtain ⟨s, h1, h2, h3⟩ := written_of (ii := 128) (si := 16) (fields := [(0, [([97], ⟨1, 0, 0, 0⟩)]), (1, [([98], ⟨2, 1, 1, 0⟩)])])
    ⟨by decide, by decide, by decide, by decide, by decide, by decide, by decide, by
      intro x hx
      simp only [List.mem_cons, List.not_mem_nil, or_false] at hx
      rcases hx with rfl | rfl <;> exact ⟨by decide, by decide, by decide, by decide⟩⟩ (by
      intro fs h
      have : (match writeDict 128 16 [(0, [([97], ⟨1, 0, 0, 0⟩)]), (1, [([98], ⟨2, 1, 1, 0⟩)])] with | .ok fs => decide (fs.tis.length < 2 ^ 64 ∧ fs.tix.length < 2 ^ 64) | _ => false) = true := by decide +kernel
      rw [h] at this
      simpa using this)
  obtain ⟨t, g1, g2, g3⟩ := written_of (ii := 128) (si := 16) (fields := [(0, [([98], ⟨3, 0, 0, 0⟩)])])
    ⟨by decide, by decide, by decide, by decide, by decide, by decide, by decide, by
      intro x hx
      simp only [List.mem_cons, List.not_mem_nil, or_false] at hx
      subst hx
      exact ⟨by decide, by decide, by decide, by decide⟩⟩ (by
      intro fs h
      have : (match writeDict 128 16 [(0, [([98], ⟨3, 0, 0, 0⟩)])] with | .ok fs => decide (fs.tis.length < 2 ^ 64 ∧ fs.tix.length < 2 ^ 64) | _ => false) = true := by decide +kernel
      rw [h] at this
      simpa using this)
  refine ⟨[⟨fisAB, s⟩, ⟨fisBC, t⟩], ?_, ⟨fisAB, by simp, ⟨[98], boostOne, 1, 1⟩, by decide, rfl⟩, ?_, ?_⟩
  · intro x hx
    simp only [List.mem_cons, List.not_mem_nil, or_false] at hx
    rcases hx with rfl | rfl
    · exact ⟨fisAB_wf, h3, by dsimp only; rw [h2]; decide⟩
    · exact ⟨fisBC_wf, g3, by dsimp only; rw [g2]; decide⟩
  · unfold Ix.freq Ix.terms
    simp only [List.map_cons, List.map_nil, h2, g2]
    decide
  · unfold Ix.terms
    simp only [List.map_cons, List.map_nil, h2, g2]
    decide

/-- A reader of one document, with norms for some fields. -/
def srWith (b : Nat → Option Byte) : Norms.Sr := ⟨⟨[95, 48], 1, -1, [], false⟩, fun f => (b f).map fun v => ⟨[v], none, false⟩, false, false⟩

/-- Norms of two indexes: field b has norm 7 in the only document of the first index, where its number is 1, and 8 in that of the second, where it is 0. -/
example : ∃ (ixs : List (FIS × Norms.Sr)) (B : Nat → Nat → List Byte), (∀ x ∈ ixs, WF x.1) ∧
    (∀ (i : Nat) x, ixs[i]? = some x → ∀ k, Norms.srInto x.2 k = .ok (B i k) ∧ (B i k).length = x.2.size ∧ (x.1.fields.length ≤ k → B i k = List.replicate x.2.size 0)) ∧
    SomeHas (ixs.map (·.1)) [98] ∧
    (List.range ixs.length).flatMap (fun i => match ixs[i]? with | some x => normsNamed x.1 (B i) x.2.size [98] | none => []) = [7, 8] := by
  refine ⟨[(fisAB, srWith fun f => if f = 1 then some 7 else none), (fisBC, srWith fun f => if f = 0 then some 8 else none)],
    fun i k => if i = 0 then (if k = 1 then [7] else [0]) else (if k = 0 then [8] else [0]), ?_, ?_, ⟨fisAB, by simp, ⟨[98], boostOne, 1, 1⟩, by decide, rfl⟩, by decide⟩
  · intro x hx
    simp only [List.mem_cons, List.not_mem_nil, or_false] at hx
    rcases hx with rfl | rfl
    · exact fisAB_wf
    · exact fisBC_wf
  · intro i x hx k
    match i, hx with
    | 0, hx =>
      cases hx
      by_cases hk : k = 1
      · subst hk; decide
      · have : Norms.srInto (srWith fun f => if f = 1 then some 7 else none) k = .ok [0] := by
          unfold Norms.srInto srWith
          simp [hk, Norms.Sr.size]
        exact ⟨by simpa [hk] using this, by simp [hk, srWith, Norms.Sr.size], fun _ => by simp [hk, srWith, Norms.Sr.size]⟩
    | 1, hx =>
      cases hx
      by_cases hk : k = 0
      · subst hk; decide
      · have : Norms.srInto (srWith fun f => if f = 0 then some 8 else none) k = .ok [0] := by
          unfold Norms.srInto srWith
          simp [hk, Norms.Sr.size]
        exact ⟨by simpa [hk] using this, by simp [hk, srWith, Norms.Sr.size], fun _ => by simp [hk, srWith, Norms.Sr.size]⟩

#print axioms c94_fields
#print axioms c94_terms_partial
#print axioms c94_doc_freq_partial
#print axioms c94_norms_partial
end Ferret.Props
