import Verif.Lemmas.MultiTerm
import Verif.Props.C20
import Verif.Props.C42
import Verif.Props.C58

/-! C88: searching for many terms. -/

namespace Ferret.Props
open Ferret Ferret.Spec Ferret.MTerm Ferret.Dict
open Ferret.Scorer hiding Term
open Ferret.Expand (Term)

variable {S : Type}

/-- The documents of a term of a field, with its frequency in each: none if the field does not have it; `docs`: those
of an entry of the dictionary. -/
def termDocs (fields : List (Nat × List (Term × TI))) (docs : Term × TI → List (Int × Nat)) (f : Int) (t : Term) : List (Int × Nat) :=
  match entryOf fields f t with
  | some e => docs e
  | none => []

/-- Postings can be read through what is seen of an entry, documents ascending. -/
structure Readable (si : Nat) (fields : List (Nat × List (Term × TI))) (docs : Term × TI → List (Int × Nat)) : Prop where
  same : ∀ a b, seen si a = seen si b → docs a = docs b
  asc : ∀ x ∈ fields, ∀ e ∈ x.2, (docs e).Pairwise fun a b => a.1 < b.1
  nonneg : ∀ x ∈ fields, ∀ e ∈ x.2, ∀ p ∈ docs e, 0 ≤ p.1

theorem skipTo_cursor (fields : List (Nat × List (Term × TI))) (c : Cursor) (t : Term) (hs : Asc c.entries) :
    (c.step fields (.skipTo t)).1.entries = c.entries ∧ (c.step fields (.skipTo t)).2 = c.entries[below c.entries t]? := by
  unfold Cursor.step
  simp only []
  rw [findIdx_below t c.entries hs]
  by_cases h : below c.entries t < c.entries.length
  · rw [if_pos h]; exact ⟨rfl, rfl⟩
  · rw [if_neg h]; exact ⟨rfl, (List.getElem?_eq_none (by omega)).symm⟩

theorem lookGo_spec {si : Nat} {sfi : SFI} {tis : List Byte} {fields : List (Nat × List (Term × TI))} {docs : Term × TI → List (Int × Nat)} (hd : DictOK sfi tis fields) (hsi : sfi.skipInterval = si) (hr : Readable si fields docs) (f : Int) :
    ∀ (bts : List (Term × S)) (e : STE) (c : Cursor), Stands sfi tis fields e c → e.file = tis → c.entries = entriesOf fields f →
    lookGo sfi docs e bts = .ok ((bts.filterMap fun bt => (entryOf fields f bt.1).map fun en => (docs en, bt.2)).map fun x => tdewNew x.1 x.2) := by
  intro bts
  induction bts with
  | nil => intros; rfl
  | cons bt bts ih =>
    intro e c hst hfile hc
    have hasc : Asc c.entries := by rw [hc]; exact (hd f).1
    obtain ⟨e', o, k1, k2, k3, k4⟩ := enumStep_spec hd e c hst hfile (.skipTo bt.1)
    obtain ⟨s1, s2⟩ := skipTo_cursor fields c bt.1 hasc
    rw [s2] at k4
    unfold enumStep at k1
    simp only [] at k1
    obtain ⟨r, r1, r2⟩ := Res.bind_eq_ok.1 k1
    have r2 := Res.ok.inj r2
    have he' : r.1 = e' := congrArg Prod.fst r2
    have ho : r.2.map (fun x => (x, r.1.ti)) = o := congrArg Prod.snd r2
    rw [lookGo, r1, Res.ok_bind, he', ih e' _ k2 k3 (s1.trans hc), Res.ok_bind]
    have hent : entryOf fields f bt.1 = (c.entries[below c.entries bt.1]?).filter fun e => decide (e.1 = bt.1) := by
      rw [← find_below bt.1 c.entries hasc, hc]; rfl
    rw [List.filterMap_cons, hent]
    rw [← ho, hsi] at k4
    congr 1
    cases hr2 : r.2 with
    | none =>
      rw [hr2] at k4
      cases hx : c.entries[below c.entries bt.1]? with
      | none => rfl
      | some x => rw [hx] at k4; cases k4
    | some t =>
      rw [hr2] at k4
      cases hx : c.entries[below c.entries bt.1]? with
      | none => rw [hx] at k4; cases k4
      | some x =>
        rw [hx] at k4
        have hseen : seen si (t, r.1.ti) = seen si x := Option.some.inj k4
        have ht : t = x.1 := congrArg Prod.fst hseen
        simp only []
        by_cases hxb : x.1 = bt.1
        · rw [if_pos (strcmp_eq.2 (ht.trans hxb)), Option.filter_some_pos (by simpa using hxb)]
          simp only [Option.map_some, List.map_cons]
          rw [← he', hr.same _ _ hseen]
        · rw [if_neg (fun h => hxb (ht ▸ strcmp_eq.1 h)), Option.filter_some_neg (by simpa using hxb)]
          rfl

theorem entryOf_mem {fields : List (Nat × List (Term × TI))} {f : Int} {t : Term} {e : Term × TI} (h : entryOf fields f t = some e) : ∃ x ∈ fields, e ∈ x.2 := by
  unfold entryOf at h
  have hm := List.mem_of_find?_eq_some h
  cases hf : fields.find? (fun x => decide ((x.1 : Int) = f)) with
  | none => rw [hf] at hm; cases hm
  | some x => rw [hf] at hm; exact ⟨x, List.mem_of_find?_eq_some hf, hm⟩

/-- The postings the scorer is made for. -/
def fullOf (fields : List (Nat × List (Term × TI))) (docs : Term × TI → List (Int × Nat)) (f : Int) (heap : List (Term × S)) : List (List (Int × Nat) × S) :=
  heap.reverse.filterMap fun bt => (entryOf fields f bt.1).map fun en => (docs en, bt.2)

theorem fullOf_ok {si : Nat} {fields : List (Nat × List (Term × TI))} {docs : Term × TI → List (Int × Nat)} (hr : Readable si fields docs) (f : Int) (heap : List (Term × S)) : FullOK (fullOf fields docs f heap) := by
  intro x hx
  obtain ⟨bt, -, hbt⟩ := List.mem_filterMap.1 hx
  obtain ⟨e, he, rfl⟩ := Option.map_eq_some_iff.1 hbt
  obtain ⟨y, hy, hey⟩ := entryOf_mem he
  exact ⟨hr.asc y hy e hey, hr.nonneg y hy e hey⟩

theorem fat_fullOf (fields : List (Nat × List (Term × TI))) (docs : Term × TI → List (Int × Nat)) (f : Int) (heap : List (Term × S)) (d : Int) :
    (fat (fullOf fields docs f heap) d).Perm (freqsIn (termDocs fields docs f) heap d) := by
  have h1 : ∀ l : List (Term × S), fat (l.filterMap fun bt => (entryOf fields f bt.1).map fun en => (docs en, bt.2)) d = freqsIn (termDocs fields docs f) l d := by
    intro l
    induction l with
    | nil => rfl
    | cons bt l ih =>
      show _ = ((termDocs fields docs f bt.1).filter fun e => decide (e.1 = d)).map (fun e => (e.2, bt.2)) ++ freqsIn (termDocs fields docs f) l d
      rw [← ih, List.filterMap_cons]
      unfold termDocs
      cases entryOf fields f bt.1 <;> rfl
  unfold fullOf
  rw [h1]
  exact (List.reverse_perm heap).flatMap_right _

theorem freqsIn_ne {T : Type} {docs : T → List (Int × Nat)} {q : List (T × S)} {d : Int} : freqsIn docs q d ≠ [] ↔ HasOne docs q d := by
  unfold freqsIn HasOne
  constructor
  · intro h
    obtain ⟨y, hy⟩ := List.exists_mem_of_ne_nil _ h
    obtain ⟨x, hx, hy⟩ := List.mem_flatMap.1 hy
    obtain ⟨e, he, -⟩ := List.mem_map.1 hy
    obtain ⟨h1, h2⟩ := List.mem_filter.1 he
    have h2 : e.1 = d := by simpa using h2
    exact ⟨x, hx, e.2, by rw [← h2]; exact h1⟩
  · rintro ⟨x, hx, n, hn⟩ h
    have := List.flatMap_eq_nil_iff.1 h x hx
    have h2 := List.map_eq_nil_iff.1 this
    have h3 := List.filter_eq_nil_iff.1 h2 _ hn
    simp at h3

theorem fat_ne {fields : List (Nat × List (Term × TI))} {docs : Term × TI → List (Int × Nat)} {f : Int} {heap : List (Term × S)} {d : Int} :
    fat (fullOf fields docs f heap) d ≠ [] ↔ HasOne (termDocs fields docs f) heap d := by
  rw [← freqsIn_ne]
  have h := fat_fullOf fields docs f heap d
  constructor
  · intro h1 h2; rw [h2, List.perm_nil] at h; exact h1 h
  · intro h1 h2; rw [h2, List.nil_perm] at h; exact h1 h

theorem weighted_perm {A : Arith S} (hA : Lawful A) (tf : Nat → S) {L M : List (Nat × S)} (h : L.Perm M) : weighted A.zero A.add A.mul tf L = weighted A.zero A.add A.mul tf M := by
  rw [weighted_eq, weighted_eq, total_perm hA (h.map _)]

/-- What multi_tw_scorer makes. -/
theorem mkScorer_made (A : Arith S) {si : Nat} {sfi : SFI} {tis : List Byte} {fields : List (Nat × List (Term × TI))} {docs : Term × TI → List (Int × Nat)} (hd : DictOK sfi tis fields) (hsi : sfi.skipInterval = si)
    (hr : Readable si fields docs) (tf : Nat → S) (weight : S) (norm : Int → S) (f : Int) (heap : List (Term × S)) :
    MTerm.mkScorer A sfi tis docs tf weight norm f heap = .ok (if fullOf fields docs f heap = [] then none else some (scNew A tf weight norm ((fullOf fields docs f heap).map fun x => tdewNew x.1 x.2))) := by
  unfold MTerm.mkScorer
  by_cases h : heap.length > 0 ∧ f ≥ 0
  · rw [if_pos h]
    obtain ⟨e', o, k1, k2, k3, -⟩ := enumStep_spec hd (steNew tis) ⟨[], 0⟩ (stands_new sfi tis fields) rfl (.setField f)
    have k1 := Res.ok.inj k1
    have he' : steSetField sfi (steNew tis) f = e' := congrArg Prod.fst k1
    rw [he', lookGo_spec hd hsi hr f heap.reverse e' _ k2 k3 rfl, Res.ok_bind]
    unfold fullOf
    congr 1
    by_cases hn : (heap.reverse.filterMap fun bt => (entryOf fields f bt.1).map fun en => (docs en, bt.2)) = []
    · rw [if_pos hn, hn]; rfl
    · rw [if_neg hn, if_pos (by rw [List.length_map]; exact fun h => hn (List.length_eq_zero_iff.1 h))]
  · rw [if_neg h]
    have : fullOf fields docs f heap = [] := by
      by_cases hh : heap.length > 0
      · have hf : ¬ f ≥ 0 := fun hf => h ⟨hh, hf⟩
        unfold fullOf
        rw [List.filterMap_eq_nil_iff]
        intro bt _
        have : fields.find? (fun x => decide ((x.1 : Int) = f)) = none := by
          rw [List.find?_eq_none]
          intro x _ hx
          have : (x.1 : Int) = f := of_decide_eq_true hx
          omega
        unfold entryOf
        rw [this]; rfl
      · have : heap = [] := List.length_eq_zero_iff.1 (by omega)
        rw [this]; rfl
    rw [if_pos this]

/-- A search for weighted terms finds `M`: a scorer is made or, if `M` is empty, may be missing; any sequence of next and
skip_to calls on it, to any document number, also one already passed, and also after the end, visits what the same walk
through `M` visits; the scores agree when addition of scores is associative and commutative. -/
def Finds (A : Arith S) (sfi : SFI) (tis : List Byte) (docs : Term × TI → List (Int × Nat)) (tf : Nat → S) (weight : S) (norm : Int → S) (f : Int) (heap : List (Term × S)) (M : List (Int × S)) : Prop :=
  ∃ s, MTerm.mkScorer A sfi tis docs tf weight norm f heap = .ok s ∧ (s = none → M = []) ∧
    ∀ s', s = some s' → ∀ ms : List Move, (∀ n, .skip n ∈ ms → 0 ≤ n) →
      ∃ out, runAll (mtOps A) s' ms = .ok out ∧ out.map (Option.map (·.1)) = (walk M ms).map (Option.map (·.1)) ∧ (Lawful A → out = walk M ms)

theorem search_opened (A : Arith S) {si : Nat} {sfi : SFI} {tis : List Byte} {fields : List (Nat × List (Term × TI))} {docs : Term × TI → List (Int × Nat)} (hd : DictOK sfi tis fields) (hsi : sfi.skipInterval = si)
    (hr : Readable si fields docs) (tf : Nat → S) (weight : S) (norm : Int → S) (f : Int) (heap : List (Term × S)) :
    ∃ M : List (Int × S), (M.map (·.1)).Pairwise (· < ·) ∧ (∀ d, d ∈ M.map (·.1) ↔ HasOne (termDocs fields docs f) heap d) ∧
      (Lawful A → ∀ e ∈ M, e.2 = A.mul (A.mul (weighted A.zero A.add A.mul tf (freqsIn (termDocs fields docs f) heap e.1)) weight) (norm e.1)) ∧
      Finds A sfi tis docs tf weight norm f heap M := by
  have hok := fullOf_ok hr f heap
  obtain ⟨l, p1, p2⟩ := docs_listed A hok
  have hmm : ((l.map fun d => (d, scoreOf A tf weight norm (fullOf fields docs f heap) d)).map (·.1)) = l := by rw [List.map_map]; simp [Function.comp_def]
  refine ⟨l.map fun d => (d, scoreOf A tf weight norm (fullOf fields docs f heap) d), by rw [hmm]; exact p1, fun d => ?_, fun hA e he => ?_, _, mkScorer_made A hd hsi hr tf weight norm f heap, fun hs => ?_, fun s' hs' ms hms => ?_⟩
  · rw [hmm, p2]; exact fat_ne
  · obtain ⟨d, -, rfl⟩ := List.mem_map.1 he
    unfold scoreOf
    rw [weighted_perm hA tf (fat_fullOf fields docs f heap d)]
  · by_cases hn : fullOf fields docs f heap = []
    · have : l = [] := List.eq_nil_iff_forall_not_mem.2 fun d hd => (p2 d).1 hd (by rw [hn]; rfl)
      rw [this]; rfl
    · rw [if_neg hn] at hs; cases hs
  · by_cases hn : fullOf fields docs f heap = []
    · rw [if_pos hn] at hs'; cases hs'
    · rw [if_neg hn] at hs'
      cases hs'
      refine runAll_spec A hok tf weight norm ms (lo := -1) _ ⟨rfl, rfl⟩ rfl rfl rfl (by rw [hmm]; exact p1) (fun d => ?_) (fun e he => ?_) hms
      · rw [hmm, p2]
        exact ⟨fun h => ⟨h, by have := fat_nonneg hok h; omega⟩, fun h => h.1⟩
      · obtain ⟨d, -, rfl⟩ := List.mem_map.1 he; rfl

/-- **C88, searching for many terms.** For every dictionary that can be written, with postings for its entries, every
field, every list of weighted terms in any order (also repeated, also ones the field does not have), after writing and
opening the dictionary the search finds, in order, exactly the documents that have at least one of the terms; their
scores are the weighted sum of the frequencies times the weight of the query times the norm. -/
theorem c88_search (A : Arith S) (ii si : Nat) (fields : List (Nat × List (Term × TI))) (h : WritableDict ii si fields) (docs : Term × TI → List (Int × Nat)) (hr : Readable si fields docs)
    (tf : Nat → S) (norm : Int → S) :
    ∃ fs, writeDict ii si fields = .ok fs ∧ (fs.tis.length < 2 ^ 64 → fs.tix.length < 2 ^ 64 → ∃ sfi, sfiOpen fs = .ok sfi ∧ ∀ (weight : S) (f : Int) (heap : List (Term × S)),
      ∃ M : List (Int × S), (M.map (·.1)).Pairwise (· < ·) ∧ (∀ d, d ∈ M.map (·.1) ↔ HasOne (termDocs fields docs f) heap d) ∧
        (Lawful A → ∀ e ∈ M, e.2 = A.mul (A.mul (weighted A.zero A.add A.mul tf (freqsIn (termDocs fields docs f) heap e.1)) weight) (norm e.1)) ∧
        Finds A sfi fs.tis docs tf weight norm f heap M) := by
  obtain ⟨fs, e1, h1⟩ := dict_spec ii si fields h.fit
  refine ⟨fs, e1, fun l1 l2 => ?_⟩
  obtain ⟨sfi, e2, hsi, -, hd⟩ := h1 l1 l2
  exact ⟨sfi, e2, fun weight f heap => search_opened A (fun f => ⟨h.asc f, hd f⟩) hsi hr tf weight norm f heap⟩

/-! ### Prefixes, patterns and similar words -/

theorem entryOf_some {fields : List (Nat × List (Term × TI))} {f : Int} (hs : Asc (entriesOf fields f)) {e : Term × TI} (he : e ∈ entriesOf fields f) : entryOf fields f e.1 = some e := by
  have h1 : entryOf fields f e.1 = (entriesOf fields f).find? fun x => decide (x.1 = e.1) := rfl
  rw [h1]
  revert hs he
  generalize entriesOf fields f = es
  intro hs he
  induction es with
  | nil => cases he
  | cons x es ih =>
    obtain ⟨h1, h2⟩ := List.pairwise_cons.1 hs
    rcases List.mem_cons.1 he with rfl | he
    · rw [List.find?_cons_of_pos (by simp)]
    · rw [List.find?_cons_of_neg (by have := h1 e he; simp; intro h; rw [h] at this; exact List.lt_irrefl _ this)]
      exact ih h2 he

/-- The documents of a field that have a term in `P`. -/
def HasTerm (fields : List (Nat × List (Term × TI))) (docs : Term × TI → List (Int × Nat)) (f : Int) (P : Term → Prop) (d : Int) : Prop :=
  ∃ e ∈ entriesOf fields f, P e.1 ∧ ∃ n, (d, n) ∈ docs e

theorem entryOf_entries {fields : List (Nat × List (Term × TI))} {f : Int} {t : Term} {e : Term × TI} (h : entryOf fields f t = some e) : e ∈ entriesOf fields f ∧ e.1 = t := by
  have h1 : entryOf fields f t = (entriesOf fields f).find? fun x => decide (x.1 = t) := rfl
  rw [h1] at h
  exact ⟨List.mem_of_find?_eq_some h, by simpa using List.find?_some h⟩

theorem hasOne_kept {fields : List (Nat × List (Term × TI))} {docs : Term × TI → List (Int × Nat)} {f : Int} (hs : Asc (entriesOf fields f)) {P : Term → Prop} {heap : List (Term × S)}
    (h : ∀ t, (∃ w, (t, w) ∈ heap) ↔ (t ∈ (entriesOf fields f).map (·.1) ∧ P t)) (d : Int) :
    HasOne (termDocs fields docs f) heap d ↔ HasTerm fields docs f P d := by
  unfold HasOne HasTerm
  constructor
  · rintro ⟨x, hx, n, hn⟩
    unfold termDocs at hn
    cases hen : entryOf fields f x.1 with
    | none => rw [hen] at hn; cases hn
    | some e =>
      rw [hen] at hn
      obtain ⟨e1, e2⟩ := entryOf_entries hen
      exact ⟨e, e1, by rw [e2]; exact ((h x.1).1 ⟨x.2, hx⟩).2, n, hn⟩
  · rintro ⟨e, he, hP, n, hn⟩
    obtain ⟨w, hw⟩ := (h e.1).2 ⟨List.mem_map_of_mem he, hP⟩
    refine ⟨(e.1, w), hw, n, ?_⟩
    unfold termDocs
    rw [entryOf_some hs he]
    exact hn

theorem limited_all {k : Nat} {l kept : List (Term × Int)} (h : Limited k l kept) (hk : l.length ≤ k) : kept.Perm l := by
  obtain ⟨dropped, h1, h2, -⟩ := h
  have := h1.length_eq
  rw [List.length_append] at this
  have hd : dropped = [] := List.length_eq_zero_iff.1 (by omega)
  rw [hd, List.append_nil] at h1
  exact h1

theorem limited_mem {k : Nat} {l : List Term} {g : Term → Int} {kept : List (Term × Int)} (h : Limited k (l.map fun t => (t, g t)) kept) (hk : l.length ≤ k) (w : Int → S) (t : Term) :
    (∃ x, (t, x) ∈ kept.map fun y => (y.1, w y.2)) ↔ t ∈ l := by
  have hp := limited_all h (by rw [List.length_map]; exact hk)
  constructor
  · rintro ⟨x, hx⟩
    obtain ⟨y, hy, hyx⟩ := List.mem_map.1 hx
    obtain ⟨u, hu, rfl⟩ := List.mem_map.1 (hp.mem_iff.1 hy)
    have : u = t := congrArg Prod.fst hyx
    rw [← this]; exact hu
  · intro ht
    exact ⟨_, List.mem_map.2 ⟨_, hp.mem_iff.2 (List.mem_map.2 ⟨t, ht, rfl⟩), rfl⟩⟩

/-- An index of which the terms can be enumerated and looked up. -/
structure Opened (si : Nat) (sfi : SFI) (tis : List Byte) (fields : List (Nat × List (Term × TI))) (docs : Term × TI → List (Int × Nat)) : Prop where
  dict : DictOK sfi tis fields
  interval : sfi.skipInterval = si
  docs : Readable si fields docs

/-- Every dictionary that can be written can be opened. -/
theorem c88_opened (ii si : Nat) (fields : List (Nat × List (Term × TI))) (h : WritableDict ii si fields) (docs : Term × TI → List (Int × Nat)) (hr : Readable si fields docs) :
    ∃ fs, writeDict ii si fields = .ok fs ∧ (fs.tis.length < 2 ^ 64 → fs.tix.length < 2 ^ 64 → ∃ sfi, sfiOpen fs = .ok sfi ∧ Opened si sfi fs.tis fields docs) := by
  obtain ⟨fs, e1, h1⟩ := dict_spec ii si fields h.fit
  refine ⟨fs, e1, fun l1 l2 => ?_⟩
  obtain ⟨sfi, e2, hsi, -, hd⟩ := h1 l1 l2
  exact ⟨sfi, e2, fun f => ⟨h.asc f, hd f⟩, hsi, hr⟩

theorem sorted_entries {sfi : SFI} {tis : List Byte} {fields : List (Nat × List (Term × TI))} (hd : DictOK sfi tis fields) (f : Int) : Sorted ((entriesOf fields f).map (·.1)) := by
  unfold Sorted
  rw [List.pairwise_map]
  exact (hd f).1

/-- **C88, prefix queries.** If no more terms of the field have the prefix than the query may expand to, a prefix query
finds exactly the documents with a (nonempty) term that has the prefix. -/
theorem c88_prefix_partial (A : Arith S) {si : Nat} {sfi : SFI} {tis : List Byte} {fields : List (Nat × List (Term × TI))} {docs : Term × TI → List (Int × Nat)} (h : Opened si sfi tis fields docs)
    (tf : Nat → S) (weight : S) (norm : Int → S) (w : Int → S) (f : Int) (pre : Term) (k : Nat) (hk : 0 < k) (boost : Int)
    (hfew : (((entriesOf fields f).map (·.1)).filter fun t => pre <+: t ∧ t ≠ []).length ≤ k) :
    ∃ q, Expand.prqRewrite (some ((entriesOf fields f).map (·.1))) pre k boost = .ok q ∧
      ∃ M, (M.map (·.1)).Pairwise (· < ·) ∧ (∀ d, d ∈ M.map (·.1) ↔ HasTerm fields docs f (fun t => pre <+: t ∧ t ≠ []) d) ∧
        Finds A sfi tis docs tf weight norm f (q.terms.heap.map fun y => (y.1, w y.2)) M := by
  obtain ⟨q, h1, -, h3⟩ := c42_prefix ((entriesOf fields f).map (·.1)) (sorted_entries h.dict f) pre k hk boost
  obtain ⟨M, m1, m2, -, m4⟩ := search_opened A h.dict h.interval h.docs tf weight norm f (q.terms.heap.map fun y => (y.1, w y.2))
  refine ⟨q, h1, M, m1, fun d => (m2 d).trans (hasOne_kept (h.dict f).1 (fun t => ?_) d), m4⟩
  rw [limited_mem (g := fun _ => Expand.one) h3 hfew w t, List.mem_filter]
  simp

/-- **C88, wildcard queries.** If no more terms of the field match the pattern than the query may expand to, a wildcard
query that has a `?` or `*` finds exactly the documents with a (nonempty) term that matches the pattern; one that has
none is a query for that term. -/
theorem c88_wildcard_partial (A : Arith S) {si : Nat} {sfi : SFI} {tis : List Byte} {fields : List (Nat × List (Term × TI))} {docs : Term × TI → List (Int × Nat)} (h : Opened si sfi tis fields docs)
    (tf : Nat → S) (weight : S) (norm : Int → S) (w : Int → S) (f : Int) (pattern : Term) (k : Nat) (hk : 0 < k) (boost : Int)
    (hlen : (pattern.takeWhile fun c => c ≠ 63 ∧ c ≠ 42).length < 255)
    (hfew : ∀ l, IsMatches ((entriesOf fields f).map (·.1)) pattern l → l.length ≤ k) :
    Expand.wcqRewrite (some ((entriesOf fields f).map (·.1))) pattern k boost = .ok (.term pattern boost) ∨
    ∃ q, Expand.wcqRewrite (some ((entriesOf fields f).map (·.1))) pattern k boost = .ok (.multi q) ∧
      ∃ M, (M.map (·.1)).Pairwise (· < ·) ∧ (∀ d, d ∈ M.map (·.1) ↔ HasTerm fields docs f (fun t => Glob pattern t ∧ t ≠ []) d) ∧
        Finds A sfi tis docs tf weight norm f (q.terms.heap.map fun y => (y.1, w y.2)) M := by
  rcases c42_wildcard_partial ((entriesOf fields f).map (·.1)) (sorted_entries h.dict f) pattern k hk boost hlen with ⟨h1, -⟩ | ⟨q, l, h1, h2, h3⟩
  · exact .inl h1
  · obtain ⟨M, m1, m2, -, m4⟩ := search_opened A h.dict h.interval h.docs tf weight norm f (q.terms.heap.map fun y => (y.1, w y.2))
    refine .inr ⟨q, h1, M, m1, fun d => (m2 d).trans (hasOne_kept (h.dict f).1 (fun t => ?_) d), m4⟩
    rw [limited_mem (g := fun _ => Expand.one) h3 (hfew l h2) w t]
    exact h2.2 t

/-! ### Inside boolean queries -/

/-- A query for weighted terms as a clause. -/
structure TermsQ (S : Type) where
  field : Int
  terms : List (Term × S)
  weight : S

/-- **C88, boolean queries.** In a boolean query whose clauses are queries for many terms, any nesting the boolean scorer
handles (C36): exactly the documents for which the query holds are found, in order, a clause holding for a document with
at least one of its terms; if every clause has a term of its field, the scores are those of the meaning of the query. -/
theorem c88_boolean_partial (A : Arith S) {si : Nat} {sfi : SFI} {tis : List Byte} {fields : List (Nat × List (Term × TI))} {docs : Term × TI → List (Int × Nat)} (h : Opened si sfi tis fields docs)
    (tf : Nat → S) (norm : Int → S) (deleted : Int → Bool) (maxDoc : Nat) (allScore : S) {L : Type} (cl : L → TermsQ S)
    (has : L → Int → Bool) (hhas : ∀ l d, has l d = true ↔ HasOne (termDocs fields docs (cl l).field) (cl l).terms d) (q : BQuery L) (hq : q.shallow = true) :
    let env : Env (Sc S) S L := ⟨fun l => match MTerm.mkScorer A sfi tis docs tf (cl l).weight norm (cl l).field (cl l).terms with | .ok s => s | _ => none, deleted, maxDoc, allScore⟩
    ∃ hits, searchEach A (mtOps A) env q = .ok hits ∧ (hits.map (·.1)).Pairwise (· < ·) ∧ (∀ d, d ∈ hits.map (·.1) ↔ q.matches' has env.live d = true) ∧
      (Lawful A → (∀ a, A.mul a (A.coord 1 1) = a) → (∀ l, ∃ x ∈ (cl l).terms, (entryOf fields (cl l).field x.1).isSome = true) → ∀ x ∈ hits,
        x.2 = q.score ⟨A.zero, A.add, A.mul, A.coord⟩ has env.live (fun l d => A.mul (A.mul (weighted A.zero A.add A.mul tf (freqsIn (termDocs fields docs (cl l).field) (cl l).terms d)) (cl l).weight) (norm d)) allScore x.1) := by
  intro env
  have hmk : ∀ l, env.mkLeaf l = if fullOf fields docs (cl l).field (cl l).terms = [] then none else some (scNew A tf (cl l).weight norm ((fullOf fields docs (cl l).field (cl l).terms).map fun x => tdewNew x.1 x.2)) := by
    intro l
    show (match MTerm.mkScorer A sfi tis docs tf (cl l).weight norm (cl l).field (cl l).terms with | .ok s => s | _ => none) = _
    rw [mkScorer_made A h.dict h.interval h.docs]
  let lv : L → View S := fun l => viewOf A tf (cl l).weight norm (fullOf fields docs (cl l).field (cl l).terms)
  have hdocs : (fun l => (lv l).docs) = has := by
    funext l d
    rw [Bool.eq_iff_iff, hhas]
    simp only [lv, viewOf, decide_eq_true_eq]
    exact fat_ne
  have hle : LeafOK (mtR A) env lv := by
    intro l
    rw [hmk]
    by_cases hn : fullOf fields docs (cl l).field (cl l).terms = []
    · rw [if_pos hn]
      intro d
      have : (lv l).docs d = decide (fat (fullOf fields docs (cl l).field (cl l).terms) d ≠ []) := by simp [lv, viewOf]
      rw [this, hn]
      simp [fat]
    · rw [if_neg hn]
      exact ⟨mtR_new A (fullOf_ok h.docs _ _) _ _ _, fun _ => rfl⟩
  obtain ⟨hits, k1, k2, k3, k4⟩ := searchEach_spec (P := Lawful A) (A := A) id (good_mt A id) hle q hq
  rw [hdocs] at k3
  have hnn : ∀ d, q.matches' has env.live d = true → 0 ≤ d := by
    intro d hm
    refine matches_nonneg (D := has) (live := env.live) (fun l hl => ?_) (fun hl => ?_) q hm
    · exact fat_nonneg (fullOf_ok h.docs _ _) (fat_ne.2 ((hhas l d).1 hl))
    · simp only [Env.live, Bool.and_eq_true, decide_eq_true_eq] at hl
      exact hl.1.1
  refine ⟨hits, k1, k2, fun d => (k3 d).trans ⟨fun h => h.1, fun h => ⟨h, hnn d h⟩⟩, fun hA hc hall x hx => ?_⟩
  have hm := (k3 x.1).1 (List.mem_map.2 ⟨x, hx, rfl⟩)
  have hsome : ∀ l, (env.mkLeaf l).isSome = true := by
    intro l
    rw [hmk]
    by_cases hn : fullOf fields docs (cl l).field (cl l).terms = []
    · obtain ⟨y, hy, hen⟩ := hall l
      unfold fullOf at hn
      rw [List.filterMap_eq_nil_iff] at hn
      have := hn y (List.mem_reverse.2 hy)
      rw [Option.map_eq_none_iff] at this
      rw [this] at hen; cases hen
    · rw [if_neg hn]; rfl
  rw [k4 hA hsome x hx, hdocs, rewrite_score hA hc _ _ _ _ _ q (by rw [rewrite_matches]; exact hm.1)]
  have : (fun l => (lv l).sc) = fun l d => A.mul (A.mul (weighted A.zero A.add A.mul tf (freqsIn (termDocs fields docs (cl l).field) (cl l).terms d)) (cl l).weight) (norm d) := by
    funext l d
    show scoreOf A tf (cl l).weight norm (fullOf fields docs (cl l).field (cl l).terms) d = _
    unfold scoreOf
    rw [weighted_perm hA tf (fat_fullOf fields docs (cl l).field (cl l).terms d)]
  rw [this]
  rfl

/-! ### Explanations -/

/-- Multiplication of scores; `isOne` tells the factor 1. -/
structure MulLaws (A : Arith S) (isOne : S → Bool) : Prop where
  comm : ∀ a b, A.mul a b = A.mul b a
  assoc : ∀ a b c, A.mul (A.mul a b) c = A.mul a (A.mul b c)
  zero : ∀ a, A.mul A.zero a = A.zero
  one : ∀ a b, isOne a = true → A.mul a b = b

/-- **C88, explanations.** The value of the explanation of a query for at least one term is the score of the document if
it has one of the terms, else zero; the weight of the query is boost · idf · qnorm · idf. -/
theorem c88_explain_partial (A : Arith S) (hA : Lawful A) (isOne : S → Bool) (hm : MulLaws A isOne) {si : Nat} {sfi : SFI} {tis : List Byte} {fields : List (Nat × List (Term × TI))} {docs : Term × TI → List (Int × Nat)}
    (h : Opened si sfi tis fields docs) (tf : Nat → S) (norm : Int → S) (w : Wt S) (f : Int) (heap : List (Term × S)) (hne : heap ≠ []) (d : Int) (hd : 0 ≤ d) :
    let weight := A.mul (A.mul (A.mul w.idf w.boost) w.qnorm) w.idf
    let value := twExplain A isOne w f heap (MTerm.mkScorer A sfi tis docs tf weight norm f heap) (norm d) d
    (HasOne (termDocs fields docs f) heap d → value = .ok (A.mul (A.mul (weighted A.zero A.add A.mul tf (freqsIn (termDocs fields docs f) heap d)) weight) (norm d))) ∧
    (¬ HasOne (termDocs fields docs f) heap d → value = .ok A.zero) := by
  intro weight value
  have hok := fullOf_ok h.docs f heap
  have hmz : ∀ a, A.mul a A.zero = A.zero := fun a => by rw [hm.comm, hm.zero]
  have hval : ∀ x, (if f < 0 then Res.ok A.zero else .ok (if isOne (A.mul (A.mul w.boost w.idf) w.qnorm) then A.mul (A.mul x w.idf) (norm d) else A.mul (A.mul (A.mul w.boost w.idf) w.qnorm) (A.mul (A.mul x w.idf) (norm d)))) =
      if f < 0 then .ok A.zero else .ok (A.mul (A.mul x weight) (norm d)) := by
    intro x
    split
    · rfl
    · congr 1
      have h1 : A.mul (A.mul (A.mul w.boost w.idf) w.qnorm) (A.mul (A.mul x w.idf) (norm d)) = A.mul (A.mul x weight) (norm d) := by
        have i1 : Std.Associative A.mul := ⟨hm.assoc⟩
        have i2 : Std.Commutative A.mul := ⟨hm.comm⟩
        simp only [weight]
        ac_rfl
      split
      · rename_i h2
        rw [← h1, hm.one _ _ h2]
      · exact h1
  have htext : ∃ n, freqText (heap.map (·.1)) = .ok n := by
    obtain ⟨x, l, rfl⟩ := List.exists_cons_of_ne_nil hne
    unfold freqText
    simp only [List.map_cons, List.sum_cons]
    rw [if_neg (by omega)]
    exact ⟨_, rfl⟩
  obtain ⟨n, hn⟩ := htext
  have hneg : f < 0 → ¬ HasOne (termDocs fields docs f) heap d := by
    rintro hf ⟨x, -, m, hx⟩
    unfold termDocs entryOf at hx
    have : fields.find? (fun x => decide ((x.1 : Int) = f)) = none := by
      rw [List.find?_eq_none]
      intro x _ hx
      have : (x.1 : Int) = f := of_decide_eq_true hx
      omega
    rw [this] at hx
    cases hx
  have hmain : value = if f < 0 then .ok A.zero else .ok (A.mul (A.mul (weighted A.zero A.add A.mul tf (freqsIn (termDocs fields docs f) heap d)) weight) (norm d)) := by
    show twExplain A isOne w f heap _ (norm d) d = _
    rw [← hval]
    unfold twExplain
    split
    · rfl
    · rw [hn, Res.ok_bind, mkScorer_made A h.dict h.interval h.docs, Res.ok_bind]
      by_cases he : fullOf fields docs f heap = []
      · rw [if_pos he]
        simp only [Res.ok_bind]
        have : freqsIn (termDocs fields docs f) heap d = [] := by
          have := fat_fullOf fields docs f heap d
          rw [he] at this
          exact List.nil_perm.1 this
        rw [this]; rfl
      · rw [if_neg he]
        simp only []
        rcases scExplain_spec A hok (s := scNew A tf weight norm ((fullOf fields docs f heap).map fun x => tdewNew x.1 x.2)) (lo := -1) ⟨rfl, rfl⟩ hd (by omega) with ⟨s1, s2⟩ | ⟨s1, L, s2, s3⟩
        · rw [s2, Res.ok_bind]
          have : freqsIn (termDocs fields docs f) heap d = [] := by
            have := fat_fullOf fields docs f heap d
            rw [s1] at this
            exact List.nil_perm.1 this
          rw [this]; rfl
        · rw [s3, Res.ok_bind]
          have : addUp A (scNew A tf weight norm ((fullOf fields docs f heap).map fun x => tdewNew x.1 x.2)).tf A.zero L = weighted A.zero A.add A.mul tf (freqsIn (termDocs fields docs f) heap d) :=
            addUp_perm hA tf (s2.trans (fat_fullOf fields docs f heap d))
          rw [this]
  refine ⟨fun hh => ?_, fun hh => ?_⟩
  · rw [hmain, if_neg (fun hf => hneg hf hh)]
  · rw [hmain]
    have : freqsIn (termDocs fields docs f) heap d = [] := Classical.byContradiction fun hc => hh (freqsIn_ne.1 hc)
    rw [this]
    split
    · rfl
    · show Res.ok (A.mul (A.mul A.zero weight) (norm d)) = _
      rw [hm.zero, hm.zero]

/-- What is missing: to explain a query without terms over a field that exists (a prefix query for a prefix no term
has, say), the code takes back two bytes of a text it has not begun. -/
theorem c88_violated_no_terms (A : Arith S) (isOne : S → Bool) (w : Wt S) (f : Int) (hf : 0 ≤ f) (sc : Res (Option (Sc S))) (x : S) (d : Int) : twExplain A isOne w f [] sc x d = .ub := by
  unfold twExplain
  rw [if_neg (by omega)]
  rfl

/-! ### An index -/

/-- Documents for the entries of `dict20`: `a` in 0, `ab` in 0, 4, 8 and 12, `b` in 0 and 1. -/
def docs88 (e : Term × TI) : List (Int × Nat) := (List.range e.2.docFreq).map fun i => (((i * (e.2.frqPtr % 4 + 1) : Nat) : Int), 1 + i)

theorem docs88_readable : Readable 3 dict20 docs88 := by
  refine ⟨fun a b h => ?_, by decide, by decide⟩
  unfold seen at h
  have h1 : a.2.docFreq = b.2.docFreq := congrArg (fun x => x.2.1) h
  have h2 : a.2.frqPtr = b.2.frqPtr := congrArg (fun x => x.2.2.1) h
  unfold docs88
  rw [h1, h2]

/-- A walk with a query for `b` (weight 5), `ab` (weight 2), a term that is not there, and `ab` once more. -/
def walk88 (ms : List Move) : Res (List (Option (Int × Nat))) :=
  writeDict 2 3 dict20 >>= fun fs => sfiOpen fs >>= fun sfi =>
  MTerm.mkScorer natArith sfi fs.tis docs88 id 10 (fun d => 1 + d.toNat) 0 [([98], 5), ([97, 98], 2), ([99], 7), ([97, 98], 1)] >>= fun s =>
  Res.ofOption s >>= fun s => runAll (mtOps natArith) s ms

example : walk88 [.next, .next, .skip 0, .skip 9, .next, .skip 3] = .ok [some (0, 80), some (1, 200), some (4, 300), some (12, 1560), none, none] := by decide +kernel
example : walk88 [.skip 5, .next] = .ok [some (8, 810), some (12, 1560)] := by decide +kernel

/-- The terms of field 0. -/
def terms88 : List Term := (entriesOf dict20 0).map (·.1)

/-- The prefix `a`: documents 0, 4, 8 and 12. -/
example : (do
    let fs ← writeDict 2 3 dict20
    let sfi ← sfiOpen fs
    let q ← Expand.prqRewrite (some terms88) [97] 10 Expand.one
    let s ← MTerm.mkScorer natArith sfi fs.tis docs88 id 10 (fun _ => 1) 0 (q.terms.heap.map fun (y : Term × Int) => (y.1, 1))
    let s ← Res.ofOption s
    runAll (mtOps natArith) s [.next, .next, .next, .next, .next]) = .ok [some (0, 20), some (4, 20), some (8, 30), some (12, 40), none] := by decide +kernel

/-- The hypothesis of `c88_prefix_partial` there. -/
example : (terms88.filter fun t => [97] <+: t ∧ t ≠ []).length ≤ 10 := by decide +kernel

/-- `+(b ab) -a`: documents 1, 4, 8 and 12. -/
example : (do
    let fs ← writeDict 2 3 dict20
    let sfi ← sfiOpen fs
    searchEach natArith (mtOps natArith) (⟨fun l => match MTerm.mkScorer natArith sfi fs.tis docs88 id 10 (fun _ => 1) 0 l with | .ok s => s | _ => none, fun _ => false, 20, 1⟩ : Env _ Nat (List (Term × Nat)))
      (.bool [(.must, .leaf [([98], 5), ([97, 98], 2)]), (.mustNot, .leaf [([97], 1)])])) = .ok [(1, 100), (4, 40), (8, 60), (12, 80)] := by decide +kernel

example : MulLaws natArith (fun x => x == 1) :=
  ⟨Nat.mul_comm, Nat.mul_assoc, Nat.zero_mul, fun a b h => by
    have h : a = 1 := by simpa using h
    rw [h]; exact Nat.one_mul b⟩

/-- The explanation of document 0, and of one without the terms. -/
example : (do
    let fs ← writeDict 2 3 dict20
    let sfi ← sfiOpen fs
    let heap := [([98], 5), ([97, 98], 2)]
    let a ← twExplain natArith (fun x => x == 1) ⟨2, 3, 5⟩ 0 heap (MTerm.mkScorer natArith sfi fs.tis docs88 id 90 (fun _ => 1) 0 heap) 1 0
    let b ← twExplain natArith (fun x => x == 1) ⟨2, 3, 5⟩ 0 heap (MTerm.mkScorer natArith sfi fs.tis docs88 id 90 (fun _ => 1) 0 heap) 1 2
    pure (a, b)) = .ok (630, 0) := by decide +kernel

#print axioms c88_search
#print axioms c88_opened
#print axioms c88_prefix_partial
#print axioms c88_wildcard_partial
#print axioms c88_boolean_partial
#print axioms c88_explain_partial
#print axioms c88_violated_no_terms
end Ferret.Props
