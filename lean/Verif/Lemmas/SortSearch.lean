import Verif.Lemmas.SortOrder

/-! The comparators of a sort and the collection of hits. -/

namespace Ferret.Sort
open Ferret Ferret.Spec Ferret.Search Ferret.PQ
open Ferret.Expand (Term)

variable {S : Type}

/-! ### Comparators -/

/-- A reader between calls: the mutex is free, what is cached is what would be built. -/
structure ReaderOK (lib : Lib S) (rd : Reader S) : Prop where
  free : rd.locked = false
  cached : ∀ f cls ix, rd.cache.lookup (f, cls) = some ix → ∃ terms, rd.terms f = some terms ∧ buildIndex lib cls rd.maxDoc terms = .ok ix
  live : rd.numDocs ≤ rd.maxDoc

/-- The same index: what is cached aside. -/
def SameIndex (a b : Reader S) : Prop := a.maxDoc = b.maxDoc ∧ a.numDocs = b.numDocs ∧ a.fields = b.fields

theorem SameIndex.terms {a b : Reader S} (h : SameIndex a b) : a.terms = b.terms := by
  funext f; unfold Reader.terms; rw [h.2.2]

/-- Can be sorted by: AUTO gone, the field known (for a type that needs it) and its values numbers if need be. -/
structure Usable (lib : Lib S) (rd : Reader S) (sf : SortField) : Prop where
  type : (settled lib rd.terms sf).type ≠ .auto
  known : (settled lib rd.terms sf).type ≠ .score → (settled lib rd.terms sf).type ≠ .doc → rd.terms sf.field ≠ none
  field : FieldOK lib rd.maxDoc ((rd.terms sf.field).getD []) (settled lib rd.terms sf).type

theorem settled_field (lib : Lib S) (terms : List Byte → Option (List (Term × List Nat))) (sf : SortField) :
    (settled lib terms sf).field = sf.field ∧ (settled lib terms sf).reverse = sf.reverse := by
  unfold settled; split <;> exact ⟨rfl, rfl⟩

theorem autoEvaluate_eq {lib : Lib S} (hl : LibOK lib) (t : Term) : autoEvaluate lib t = autoType lib t := by
  unfold autoEvaluate autoType
  dsimp only
  by_cases h1 : (lib.scanD t).getD 0 = t.length
  · rw [if_pos h1, if_pos]
    cases hs : lib.scanD t with
    | none => rw [hs] at h1; left; exact List.length_eq_zero_iff.1 h1.symm
    | some n => rw [hs] at h1; right; simp at h1; rw [h1]
  · have h2 : ¬ (t = [] ∨ lib.scanD t = some t.length) := by
      rintro (rfl | h)
      · rw [hl.empty] at h1; exact h1 rfl
      · rw [h] at h1; exact h1 rfl
    rw [if_neg h1, if_neg h2]
    cases hs : lib.scanF t with
    | none => simp [h1]
    | some x => simp

theorem resolve_spec {lib : Lib S} (hl : LibOK lib) {rd : Reader S} {sf : SortField} (hu : Usable lib rd sf) :
    resolve lib rd sf = .ok (settled lib rd.terms sf) := by
  have ht := hu.type
  unfold resolve settled at *
  by_cases ha : sf.type = .auto
  · rw [if_pos ha]
    rw [ha] at ht ⊢
    cases hm : rd.terms sf.field with
    | none => rw [hm] at ht; exact absurd ha ht
    | some l =>
      cases l with
      | nil => rw [hm] at ht; exact absurd ha ht
      | cons x l =>
        obtain ⟨t, docs⟩ := x
        simp only [autoEvaluate_eq hl]
  · rw [if_neg ha]
    split
    · rename_i e _; exact absurd e ha
    · rfl

theorem lookup_cons_eq {α β : Type} [BEq α] [LawfulBEq α] [DecidableEq α] (a k : α) (b : β) (l : List (α × β)) : ((k, b) :: l).lookup a = if a = k then some b else l.lookup a := by
  rw [List.lookup_cons]
  by_cases h : a = k
  · subst h; simp
  · rw [if_neg h, beq_eq_false_iff_ne.2 h]

theorem getComparator_spec {lib : Lib S} (hl : LibOK lib) {rd : Reader S} (hr : ReaderOK lib rd) (hd : rd.numDocs ≠ 0) {sf : SortField} (hu : Usable lib rd sf) :
    ∃ c rd', getComparator lib sf rd = (.ok c, settled lib rd.terms sf, rd') ∧ ReaderOK lib rd' ∧ SameIndex rd' rd ∧
      c.type = (settled lib rd.terms sf).type ∧ c.reverse = sf.reverse ∧
      ∀ d score, d < rd.maxDoc → readKey c d score = .ok (keyOf lib ((rd.terms sf.field).getD []) (settled lib rd.terms sf).type d score) := by
  have hmax : rd.maxDoc ≠ 0 := by have := hr.live; omega
  obtain ⟨hsf, hsr⟩ := settled_field lib rd.terms sf
  unfold getComparator
  by_cases hsd : sf.type = .score ∨ sf.type = .doc
  · have hst : settled lib rd.terms sf = sf := by
      unfold settled
      split
      · rename_i e _; rcases hsd with h | h <;> rw [h] at e <;> cases e
      · rfl
    rw [if_pos hsd, hst]
    refine ⟨_, rd, rfl, hr, ⟨rfl, rfl, rfl⟩, rfl, rfl, fun d score _ => ?_⟩
    rcases hsd with h | h <;> simp only [readKey, keyOf, h]
  · rw [if_neg hsd, resolve_spec hl hu]
    dsimp only
    have htype : (settled lib rd.terms sf).type ≠ .auto ∧ (settled lib rd.terms sf).type ≠ .score ∧ (settled lib rd.terms sf).type ≠ .doc := by
      refine ⟨hu.type, ?_⟩
      unfold settled
      split
      · constructor <;> (simp only [autoType]; repeat' split) <;> simp
      · exact ⟨fun h => hsd (Or.inl h), fun h => hsd (Or.inr h)⟩
    rw [hr.free]
    simp only [Bool.false_eq_true, if_false]
    rw [hsf]
    cases hm : rd.terms sf.field with
    | none => exact absurd hm (hu.known htype.2.1 htype.2.2)
    | some terms =>
      have hfield := hu.field
      rw [hm] at hfield
      obtain ⟨ix, hb, hk⟩ := buildIndex_spec lib hfield htype
      have hterms : ({ rd with locked := true } : Reader S).terms sf.field = some terms := hm
      unfold fieldIndexGet
      rw [hterms]
      dsimp only
      cases hc : rd.cache.lookup (sf.field, (settled lib rd.terms sf).type) with
      | some ix' =>
        obtain ⟨terms', k1, k2⟩ := hr.cached _ _ _ hc
        rw [hm] at k1
        cases k1
        have : ix' = ix := by
          have := k2.symm.trans hb
          simpa using this
        subst this
        refine ⟨_, _, rfl, ⟨rfl, hr.cached, hr.live⟩, ⟨rfl, rfl, rfl⟩, rfl, hsr, fun d score hd => hk _ d score hd⟩
      | none =>
        dsimp only
        rw [if_neg hmax]
        simp only [Option.getD_some] at hb
        rw [hb]
        refine ⟨_, _, rfl, ⟨rfl, ?_, hr.live⟩, ⟨rfl, rfl, rfl⟩, rfl, hsr, fun d score hd => hk _ d score hd⟩
        intro f cls ix' hlk
        dsimp only at hlk
        rw [lookup_cons_eq] at hlk
        split at hlk
        · rename_i e
          cases e
          cases hlk
          exact ⟨terms, hm, hb⟩
        · exact hr.cached f cls ix' hlk

/-- What the comparators of a reader read. -/
def keyIn (lib : Lib S) (terms : List Byte → Option (List (Term × List Nat))) (sf : SortField) (h : Hit S) : Key S :=
  keyOf lib ((terms sf.field).getD []) sf.type h.doc h.score

theorem Usable.same {lib : Lib S} {a b : Reader S} (h : SameIndex a b) {sf : SortField} (hu : Usable lib b sf) : Usable lib a sf := by
  have ht := h.terms
  constructor
  · rw [ht]; exact hu.type
  · rw [ht]; exact hu.known
  · rw [ht, h.1]; exact hu.field

theorem mkSorter_spec {lib : Lib S} (hl : LibOK lib) : ∀ (sort : List SortField) (rd : Reader S), ReaderOK lib rd → rd.numDocs ≠ 0 →
    (∀ sf ∈ sort, Usable lib rd sf) →
    ∃ cs rd', mkSorter lib sort rd = (.ok cs, sort.map (settled lib rd.terms), rd') ∧ ReaderOK lib rd' ∧ SameIndex rd' rd ∧
      ∀ h : Hit S, h.doc < rd.maxDoc → readKeys h.doc h.score cs = .ok (mkDoc (keyIn lib rd.terms) (sort.map (settled lib rd.terms)) h).cmps
  | [], rd, hr, _, _ => ⟨[], rd, rfl, hr, ⟨rfl, rfl, rfl⟩, fun _ _ => rfl⟩
  | sf :: sort, rd, hr, hd, hu => by
    obtain ⟨c, rd1, e1, r1, s1, t1, v1, k1⟩ := getComparator_spec hl hr hd (hu sf (List.mem_cons_self ..))
    have hts := s1.terms
    obtain ⟨cs, rd2, e2, r2, s2, k2⟩ := mkSorter_spec hl sort rd1 r1 (by rw [s1.2.1]; exact hd)
      (fun x hx => (hu x (List.mem_cons_of_mem _ hx)).same s1)
    rw [hts] at e2 k2
    refine ⟨c :: cs, rd2, by simp only [mkSorter, e1, e2, List.map_cons], r2, ⟨s2.1.trans s1.1, s2.2.1.trans s1.2.1, s2.2.2.trans s1.2.2⟩, fun h hh => ?_⟩
    simp only [readKeys]
    rw [k1 h.doc h.score hh, Res.ok_bind, k2 h (by rw [s1.1]; exact hh), Res.ok_bind, t1, v1]
    obtain ⟨hsf, hsr⟩ := settled_field lib rd.terms sf
    simp only [mkDoc, List.map_cons, keyIn, hsf, hsr]

/-! ### Collecting -/

theorem collect_spec {lib : Lib S} {K : SortField → Hit S → Key S} {sfs : List SortField} {cs : List (Comparator S)} {maxDoc : Nat}
    (hlt : StrictWeak fun a b => fshqLt lib (mkDoc K sfs a) (mkDoc K sfs b))
    (hkeys : ∀ h : Hit S, h.doc < maxDoc → readKeys h.doc h.score cs = .ok (mkDoc K sfs h).cmps)
    (bits : Option BitVector.BV) (pass : Nat → Bool) (hb : FilterBits bits pass) (pf : Option (Nat → S → Option S)) (hits : List (Hit S)) :
    ∀ (q : PQ (Hit S)) (total : Nat) (mx : S) (k : Nat) (seen : List (Hit S)), (∀ h ∈ hits, h.doc < maxDoc) →
      Kept (fun a b => fshqLt lib (mkDoc K sfs a) (mkDoc K sfs b)) k seen q →
      ∃ q', collect lib cs bits pf ⟨q.map (mkDoc K sfs), total, mx⟩ hits =
          .ok ⟨q'.map (mkDoc K sfs), total + (accepted pass (adjustOf pf) hits).length, bestScore lib.lt mx (accepted pass (adjustOf pf) hits)⟩ ∧
        Kept (fun a b => fshqLt lib (mkDoc K sfs a) (mkDoc K sfs b)) k (seen ++ accepted pass (adjustOf pf) hits) q' := by
  induction hits with
  | nil => intro q total mx k seen _ h; exact ⟨q, by simp [collect, accepted, bestScore], by simpa [accepted] using h⟩
  | cons x xs ih =>
    intro q total mx k seen hm h
    have hpass : passBits bits x.doc = .ok (pass x.doc) := by
      cases bits with
      | none => simp only [FilterBits] at hb; rw [hb]; rfl
      | some bv => exact hb x.doc
    have hadj : postFilter pf x.doc x.score = adjustOf pf x.doc x.score := by
      cases pf <;> rfl
    have hstep : ∃ q1, collect1 lib cs bits pf ⟨q.map (mkDoc K sfs), total, mx⟩ x =
          .ok ⟨q1.map (mkDoc K sfs), total + (accepted pass (adjustOf pf) [x]).length, bestScore lib.lt mx (accepted pass (adjustOf pf) [x])⟩ ∧
        Kept (fun a b => fshqLt lib (mkDoc K sfs a) (mkDoc K sfs b)) k (seen ++ accepted pass (adjustOf pf) [x]) q1 := by
      unfold collect1
      dsimp only
      rw [hpass, hadj, Res.ok_bind]
      by_cases hp : pass x.doc = true
      · rw [hp]
        simp only [Bool.not_true, Bool.false_eq_true, if_false]
        cases ha : adjustOf pf x.doc x.score with
        | none =>
          refine ⟨q, ?_⟩
          simp [accepted, hp, ha, bestScore]; exact h
        | some sc =>
          obtain ⟨q', i, o, e1, e2⟩ := h.insert hlt ⟨x.doc, sc⟩
          dsimp only
          rw [hkeys ⟨x.doc, sc⟩ (hm x (List.mem_cons_self ..)), Res.ok_bind]
          have := insert_map (mkDoc K sfs) (fshqLt lib) q ⟨x.doc, sc⟩
          rw [e1] at this
          rw [show (⟨x.doc, sc, (mkDoc K sfs ⟨x.doc, sc⟩).cmps⟩ : FieldDoc S) = mkDoc K sfs ⟨x.doc, sc⟩ from rfl, this]
          refine ⟨q', ?_⟩
          simp [accepted, hp, ha, bestScore]; exact e2
      · have hp' : pass x.doc = false := by simpa using hp
        rw [hp']
        simp only [Bool.not_false, if_true]
        refine ⟨q, ?_⟩
        simp [accepted, hp', bestScore]; exact h
    obtain ⟨q1, e1, k1⟩ := hstep
    obtain ⟨q2, e2, k2⟩ := ih q1 _ _ k _ (fun h hh => hm h (List.mem_cons_of_mem _ hh)) k1
    have hcons : accepted pass (adjustOf pf) (x :: xs) = accepted pass (adjustOf pf) [x] ++ accepted pass (adjustOf pf) xs := by
      unfold accepted; rw [← List.filterMap_append]; rfl
    refine ⟨q2, ?_, ?_⟩
    · simp only [collect, e1, Res.ok_bind]
      rw [e2, hcons, List.length_append]
      simp only [bestScore, List.foldl_append, Nat.add_assoc]
    · rw [hcons, ← List.append_assoc]; exact k2

/-- The order of a sort on one index. -/
theorem keys_listed {lib : Lib S} (hl : LibOK lib) {rd : Reader S} {sort : List SortField} (hu : ∀ sf ∈ sort, Usable lib rd sf) (a b : Hit S) :
    fshqLt lib (mkDoc (keyIn lib rd.terms) (sort.map (settled lib rd.terms)) a) (mkDoc (keyIn lib rd.terms) (sort.map (settled lib rd.terms)) b) =
      listedBefore (valuesIn lib rd.terms) (sort.map (settled lib rd.terms)) b a := by
  refine fshqLt_listed (fun sf hsf x y => ?_) a b
  rw [List.mem_map] at hsf
  obtain ⟨sf0, h0, rfl⟩ := hsf
  obtain ⟨hf, hrv⟩ := settled_field lib rd.terms sf0
  have := (hu sf0 h0).field
  rw [← hf] at this
  exact compare_signed hl this (hu sf0 h0).type x y

end Ferret.Sort
