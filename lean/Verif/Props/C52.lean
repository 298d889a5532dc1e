import Verif.Lemmas.SortSearch
import Verif.Props.C34

/-! C52: a sorted search returns the requested page of the hits in the order of the sort. -/

namespace Ferret.Props
open Ferret Ferret.Spec
open Ferret.Search (Hit maxSize checkArgs Kept kept_new accepted_distinct DistinctDocs)
open Ferret.Sort (SortField SType Lib Reader ReaderOK Usable SameIndex FieldDoc TopFields FieldOK iseaSorted mseaSorted mkDoc keyIn mkSorter Index fshqLt fdshqLt)

variable {S : Type}

/-- The hit of a result. -/
def hitOf (d : FieldDoc S) : Hit S := ⟨d.doc, d.score⟩

theorem hitOf_mkDoc (K : SortField → Hit S → Sort.Key S) (sfs : List SortField) (hits : List (Hit S)) :
    (hits.map (mkDoc K sfs)).map hitOf = hits := by
  rw [List.map_map]
  exact (List.map_congr_left fun h _ => rfl).trans (List.map_id _)

theorem sortArgs_ok (first num : Nat) (hnum : 0 < num) (hfit : first + num ≤ 2147483647 ∨ num = 2147483647) :
    ∃ mx : Nat, (maxSize (num : Int) (first : Int) >>= fun mx => checkArgs (num : Int) (first : Int) >>= fun _ => .ok mx) = .ok (mx : Int) ∧
      mx ≤ 2147483647 ∧ (mx = first + num ∨ (num = 2147483647 ∧ mx = 2147483647)) := by
  obtain ⟨mx, e, h⟩ := maxSize_ok first num hfit
  exact ⟨mx, by rw [e, Res.ok_bind, checkArgs_ok first num hnum, Res.ok_bind], h⟩

/-- The answer in full: the documents come with what they are sorted by. -/
theorem sorted_page {lib : Lib S} (hl : LibOK lib) {rd : Reader S} (hr : ReaderOK lib rd) {sort : List SortField}
    (hu : ∀ sf ∈ sort, Usable lib rd sf) (hits : List (Hit S)) (hd : hits.Pairwise (fun a b => a.doc ≠ b.doc)) (hmax : ∀ h ∈ hits, h.doc < rd.maxDoc)
    (hcount : hits.length ≤ 2147483647) (bits : Option BitVector.BV) (pass : Nat → Bool) (hb : FilterBits bits pass)
    (pf : Option (Nat → S → Option S)) (hlive : rd.numDocs ≠ 0) (first num : Nat) (hnum : 0 < num)
    (hfit : first + num ≤ 2147483647 ∨ num = 2147483647) :
    ∃ rd', iseaSorted lib rd sort (some hits) bits pf (first : Int) (num : Int) =
      (.ok { totalHits := (accepted pass (adjustOf pf) hits).length
             hits := (((sortedHits (valuesIn lib rd.terms) (sort.map (settled lib rd.terms)) (accepted pass (adjustOf pf) hits)).drop first).take num).map
               (mkDoc (keyIn lib rd.terms) (sort.map (settled lib rd.terms)))
             maxScore := bestScore lib.lt lib.zero (accepted pass (adjustOf pf) hits) },
        sort.map (settled lib rd.terms), rd') ∧ ReaderOK lib rd' ∧ SameIndex rd' rd := by
  obtain ⟨mx, e1, _, hmx⟩ := sortArgs_ok first num hnum hfit
  obtain ⟨cs, rd', e2, r2, s2, k2⟩ := Sort.mkSorter_spec hl sort rd hr hlive hu
  have hlt : (fun a b => fshqLt lib (mkDoc (keyIn lib rd.terms) (sort.map (settled lib rd.terms)) a) (mkDoc (keyIn lib rd.terms) (sort.map (settled lib rd.terms)) b)) =
      fun a b => listedBefore (valuesIn lib rd.terms) (sort.map (settled lib rd.terms)) b a := by
    funext a b; exact Sort.keys_listed hl hu a b
  have hsw := Sort.strictWeak_flip (Sort.listedBefore_strictWeak (v := valuesIn lib rd.terms) hl (sort.map (settled lib rd.terms)))
  obtain ⟨q, e3, k3⟩ := Sort.collect_spec (K := keyIn lib rd.terms) (sfs := sort.map (settled lib rd.terms)) (by rw [hlt]; exact hsw) k2 bits pass hb pf hits
    (PQ.new mx) 0 lib.zero mx [] hmax (by rw [hlt]; exact kept_new _ _)
  rw [hlt, List.nil_append] at k3
  refine ⟨rd', ?_, r2, s2⟩
  unfold iseaSorted
  rw [e1]
  dsimp only
  rw [if_neg hlive, e2]
  dsimp only
  rw [show (PQ.new (mx : Int).toNat : PQ.PQ (FieldDoc S)) = (PQ.new mx : PQ.PQ (Hit S)).map (mkDoc (keyIn lib rd.terms) (sort.map (settled lib rd.terms))) from by
    simp [PQ.PQ.map, PQ.new]]
  rw [e3, Res.ok_bind]
  dsimp only
  rw [PQ.pageBy_map, hlt]
  have hacc : (accepted pass (adjustOf pf) hits).length ≤ hits.length := List.length_filterMap_le _ _
  have hdd := accepted_distinct (pass := pass) (adj := adjustOf pf) hd
  simp only [Int.toNat_natCast]
  rw [Search.pageBy_spec hsw k3 (fun a ha b hb h1 h2 => hdd.inj ha hb (Sort.listedBefore_tie _ a b h2 h1)) first num (by
    rcases hmx with h | ⟨h1, h2⟩
    · exact Or.inl h
    · right; omega)]
  simp only [PQ.mapR_ok, Res.ok_bind, Nat.zero_add]
  rfl

/-- What a sorted search must answer: how many, the requested page in order, the greatest score. -/
def SortedAnswer (v : Values S) (sort : List SortField) (acc : List (Hit S)) (first num : Nat) (td : TopFields S) : Prop :=
  td.totalHits = acc.length ∧ td.hits.map hitOf = ((sortedHits v sort acc).drop first).take num ∧ td.maxScore = bestScore v.lib.lt v.lib.zero acc

theorem settled_twice {lib : Lib S} {rd : Reader S} {sf : SortField} (hu : Usable lib rd sf) :
    settled lib rd.terms (settled lib rd.terms sf) = settled lib rd.terms sf := by
  have := hu.type
  generalize settled lib rd.terms sf = x at *
  unfold settled
  split
  · rename_i e _; exact absurd e this
  · rfl

theorem Usable.settled {lib : Lib S} {rd : Reader S} {sf : SortField} (hu : Usable lib rd sf) : Usable lib rd (settled lib rd.terms sf) := by
  obtain ⟨hf, _⟩ := Sort.settled_field lib rd.terms sf
  constructor
  · rw [settled_twice hu]; exact hu.type
  · rw [settled_twice hu, hf]; exact hu.known
  · rw [settled_twice hu, hf]; exact hu.field

/-- **C52.** For every index, sort (any number of fields of any type and direction, AUTO included),
stream of matches, filter, post filter and valid page, a sorted search returns the number of accepted
matches and exactly the requested page of them in the order of the sort: lexicographically by the
values of the sort fields, then by document number. The reader is left as fit for the next sorted
search, and the sort (whose AUTO fields are replaced) asks the same of this index.

Missing, each with a witness below: values that are not numbers (`Usable`), NaN (`LibOK`), fields the
index does not know, and any sorted search after one that failed (`ReaderOK`). -/
theorem c52_sorted_page_partial {lib : Lib S} (hl : LibOK lib) {rd : Reader S} (hr : ReaderOK lib rd) {sort : List SortField}
    (hu : ∀ sf ∈ sort, Usable lib rd sf) (hits : List (Hit S)) (hd : hits.Pairwise (fun a b => a.doc ≠ b.doc)) (hmax : ∀ h ∈ hits, h.doc < rd.maxDoc)
    (hcount : hits.length ≤ 2147483647) (bits : Option BitVector.BV) (pass : Nat → Bool) (hb : FilterBits bits pass)
    (pf : Option (Nat → S → Option S)) (hlive : rd.numDocs = 0 → hits = []) (first num : Nat) (hnum : 0 < num)
    (hfit : first + num ≤ 2147483647 ∨ num = 2147483647) :
    ∃ td sort' rd', iseaSorted lib rd sort (some hits) bits pf (first : Int) (num : Int) = (.ok td, sort', rd') ∧
      SortedAnswer (valuesIn lib rd.terms) (sort.map (settled lib rd.terms)) (accepted pass (adjustOf pf) hits) first num td ∧
      ReaderOK lib rd' ∧ SameIndex rd' rd ∧ (∀ sf ∈ sort', Usable lib rd sf) ∧ sort'.map (settled lib rd.terms) = sort.map (settled lib rd.terms) := by
  by_cases h0 : rd.numDocs = 0
  · obtain ⟨mx, e1, _, _⟩ := sortArgs_ok first num hnum hfit
    refine ⟨⟨0, [], lib.zero⟩, sort, rd, ?_, ?_, hr, ⟨rfl, rfl, rfl⟩, hu, rfl⟩
    · unfold iseaSorted
      rw [e1]
      dsimp only
      rw [if_pos h0]
    · rw [hlive h0]
      exact ⟨rfl, by simp [accepted, sortedHits], rfl⟩
  · obtain ⟨rd', e, r', s'⟩ := sorted_page hl hr hu hits hd hmax hcount bits pass hb pf h0 first num hnum hfit
    refine ⟨_, _, rd', e, ⟨rfl, hitOf_mkDoc _ _ _, rfl⟩, r', s', ?_, ?_⟩
    · intro sf hsf
      rw [List.mem_map] at hsf
      obtain ⟨x, hx, rfl⟩ := hsf
      exact Usable.settled (hu x hx)
    · rw [List.map_map]
      exact List.map_congr_left fun x hx => settled_twice (hu x hx)

/-- A request. -/
structure SortReq (S : Type) where
  sort : List SortField
  hits : List (Hit S)
  bits : Option BitVector.BV
  pass : Nat → Bool
  pf : Option (Nat → S → Option S)
  first : Nat
  num : Nat

/-- A request that the theorem covers. -/
structure SortReqOK (lib : Lib S) (rd : Reader S) (r : SortReq S) : Prop where
  usable : ∀ sf ∈ r.sort, Usable lib rd sf
  distinct : r.hits.Pairwise (fun a b => a.doc ≠ b.doc)
  bound : ∀ h ∈ r.hits, h.doc < rd.maxDoc
  count : r.hits.length ≤ 2147483647
  filter : FilterBits r.bits r.pass
  live : rd.numDocs = 0 → r.hits = []
  num : 0 < r.num
  fit : r.first + r.num ≤ 2147483647 ∨ r.num = 2147483647

/-- Searches one after the other on one reader. -/
def sortedSession (lib : Lib S) : Reader S → List (SortReq S) → List (Res (TopFields S))
  | _, [] => []
  | rd, r :: rs =>
    let x := iseaSorted lib rd r.sort (some r.hits) r.bits r.pf (r.first : Int) (r.num : Int)
    x.1 :: sortedSession lib x.2.2 rs

/-- Each answer is right. -/
inductive AllAnswered (lib : Lib S) (rd : Reader S) : List (SortReq S) → List (Res (TopFields S)) → Prop
  | nil : AllAnswered lib rd [] []
  | cons {r rs td out} : SortedAnswer (valuesIn lib rd.terms) (r.sort.map (settled lib rd.terms)) (accepted r.pass (adjustOf r.pf) r.hits) r.first r.num td →
      AllAnswered lib rd rs out → AllAnswered lib rd (r :: rs) (.ok td :: out)

/-- **C52, any history.** All sorted searches of a reader are right, whatever earlier ones left in its
cache. -/
theorem c52_session_partial {lib : Lib S} (hl : LibOK lib) {rd : Reader S} (hr : ReaderOK lib rd) (reqs : List (SortReq S))
    (h : ∀ r ∈ reqs, SortReqOK lib rd r) : AllAnswered lib rd reqs (sortedSession lib rd reqs) := by
  have key : ∀ (reqs : List (SortReq S)) (rd1 : Reader S), ReaderOK lib rd1 → SameIndex rd1 rd → (∀ r ∈ reqs, SortReqOK lib rd r) →
      AllAnswered lib rd reqs (sortedSession lib rd1 reqs) := by
    intro reqs
    induction reqs with
    | nil => intro _ _ _ _; exact .nil
    | cons r rs ih =>
      intro rd1 h1 h2 h
      have hr := h r (List.mem_cons_self ..)
      have ht := h2.terms
      obtain ⟨td, sort', rd', e, a, r', s', _, _⟩ := c52_sorted_page_partial hl h1 (fun sf hsf => (hr.usable sf hsf).same h2) r.hits hr.distinct
        (by rw [h2.1]; exact hr.bound) hr.count r.bits r.pass hr.filter r.pf (by rw [h2.2.1]; exact hr.live) r.first r.num hr.num hr.fit
      rw [ht] at a
      simp only [sortedSession, e]
      exact .cons a (ih rd' r' ⟨s'.1.trans h2.1, s'.2.1.trans h2.2.1, s'.2.2.trans h2.2.2⟩ (fun x hx => h x (List.mem_cons_of_mem _ hx)))
  exact key reqs rd hr ⟨rfl, rfl, rfl⟩ h

/-! ### Several indexes -/

/-- Where a document of the union lives: the terms of its index and its number there. -/
def locate : List (Sort.SubIn S) → Nat → (List Byte → Option (List (List Byte × List Nat))) × Nat
  | [], d => (fun _ => none, d)
  | s :: ss, d => if d < s.reader.maxDoc then (s.reader.terms, d) else locate ss (d - s.reader.maxDoc)

/-- The values of the documents of the union. -/
def unionValues (lib : Lib S) (subs : List (Sort.SubIn S)) : Values S :=
  ⟨lib, fun f d => ((locate subs d).1 f).bind fun ts => lastTerm ts (locate subs d).2⟩

/-- What a sub-searcher gives, sorting aside. -/
def plainSub (s : Sort.SubIn S) : Search.SubIn S := ⟨s.reader.maxDoc, s.scorer, s.reader.numDocs, s.bits⟩

/-- What `fdshq_lt` reads. -/
def keyU (lib : Lib S) (subs : List (Sort.SubIn S)) (sf : SortField) (h : Hit S) : Sort.Key S :=
  Sort.keyOf lib (((locate subs h.doc).1 sf.field).getD []) sf.type (locate subs h.doc).2 h.score

theorem fdCompare_signed {lib : Lib S} (h : LibOK lib) (subs : List (Sort.SubIn S)) {sf : SortField} (hauto : sf.type ≠ .auto) (hbyte : sf.type ≠ .byte)
    (a b : Hit S) : Sort.Signed (Sort.fdCompare lib a.doc b.doc sf.type (keyU lib subs sf a) (keyU lib subs sf b))
      (comesBefore (unionValues lib subs) sf b a) (comesBefore (unionValues lib subs) sf a b) := by
  have hval : ∀ d, (unionValues lib subs).val sf.field d = lastTerm (((locate subs d).1 sf.field).getD []) (locate subs d).2 := by
    intro d
    simp only [unionValues]
    cases (locate subs d).1 sf.field <;> rfl
  have hsw : ∀ p q : Bool, (p = true → q = false) → Sort.Signed (if p then -1 else if q then 1 else 0) q p := by
    intro p q hpq
    cases p <;> cases q <;> simp [Sort.Signed] at hpq ⊢
  have hint : ∀ x y : Int, Sort.Signed (if x < y then -1 else if x > y then 1 else 0) (decide (y < x)) (decide (x < y)) := by
    intro x y
    unfold Sort.Signed
    constructor
    · by_cases h : x < y
      · simp [h]; omega
      · by_cases h2 : x > y <;> simp [h, h2]
    · by_cases h : x < y
      · simp [h]
      · by_cases h2 : x > y <;> simp [h, h2]
  unfold comesBefore
  cases ht : sf.type with
  | auto => exact absurd ht hauto
  | byte => exact absurd ht hbyte
  | score => simp only [Sort.fdCompare, keyU, ht, Sort.keyOf]; exact hsw _ _ (h.float.asymm _ _)
  | doc =>
    simp only [Sort.fdCompare]
    have := hint a.doc b.doc
    simpa using this
  | integer =>
    simp only [Sort.fdCompare, keyU, ht, Sort.keyOf, Values.int, hval]
    exact hint _ _
  | float =>
    simp only [Sort.fdCompare, keyU, ht, Sort.keyOf, Values.float, hval]
    exact hsw _ _ (h.float.asymm _ _)
  | string => simp only [Sort.fdCompare, keyU, ht, Sort.keyOf]; rw [hval, hval]; exact Sort.signed_str h _ _

theorem locate_append (pre : List (Sort.SubIn S)) (s : Sort.SubIn S) (post : List (Sort.SubIn S)) (d : Nat) (hd : d < s.reader.maxDoc) :
    locate (pre ++ s :: post) (d + (pre.map (·.reader.maxDoc)).sum) = (s.reader.terms, d) := by
  induction pre with
  | nil => simp [locate, hd]
  | cons x pre ih =>
    simp only [List.cons_append, locate, List.map_cons, List.sum_cons]
    rw [if_neg (by omega), show d + (x.reader.maxDoc + (pre.map (·.reader.maxDoc)).sum) - x.reader.maxDoc = d + (pre.map (·.reader.maxDoc)).sum by omega]
    exact ih

theorem listedBefore_union {lib : Lib S} {subs : List (Sort.SubIn S)} {terms : List Byte → Option (List (List Byte × List Nat))} {start : Nat} {a b : Hit S}
    (ha : locate subs (a.doc + start) = (terms, a.doc)) (hb : locate subs (b.doc + start) = (terms, b.doc)) : ∀ sfs,
    listedBefore (unionValues lib subs) sfs (shiftHit start a) (shiftHit start b) = listedBefore (valuesIn lib terms) sfs a b
  | [] => by simp [listedBefore, shiftHit]
  | sf :: sfs => by
    have hva : ∀ f, (unionValues lib subs).val f (a.doc + start) = (valuesIn lib terms).val f a.doc := by
      intro f; simp only [unionValues, valuesIn, ha]
    have hvb : ∀ f, (unionValues lib subs).val f (b.doc + start) = (valuesIn lib terms).val f b.doc := by
      intro f; simp only [unionValues, valuesIn, hb]
    have h1 : ∀ sf, comesBefore (unionValues lib subs) sf (shiftHit start a) (shiftHit start b) = comesBefore (valuesIn lib terms) sf a b := by
      intro sf
      unfold comesBefore
      cases sf.type <;> simp [shiftHit, Values.int, Values.float, hva, hvb] <;> rfl
    have h2 : ∀ sf, comesBefore (unionValues lib subs) sf (shiftHit start b) (shiftHit start a) = comesBefore (valuesIn lib terms) sf b a := by
      intro sf
      unfold comesBefore
      cases sf.type <;> simp [shiftHit, Values.int, Values.float, hva, hvb] <;> rfl
    simp only [listedBefore, precedes, h1, h2, listedBefore_union ha hb sfs]

/-- A usable sub-searcher: as for one index, and if it searches at all its AUTO fields stand for the
same types as those of the others. -/
structure SubSortOK (lib : Lib S) (sort rs : List SortField) (s : Sort.SubIn S) (pass : Nat → Bool) : Prop where
  plain : SubOK (plainSub s) pass
  reader : ReaderOK lib s.reader
  usable : s.scorer ≠ none → s.reader.numDocs ≠ 0 → ∀ sf ∈ sort, Usable lib s.reader sf
  settled : s.scorer ≠ none → s.reader.numDocs ≠ 0 → sort.map (settled lib s.reader.terms) = rs

theorem insertShifted_sorted {lib : Lib S} {Kl Ku : SortField → Hit S → Sort.Key S} {rs : List SortField} {start maxDoc : Nat}
    (hlt : StrictWeak fun a b => fdshqLt lib (mkDoc Ku rs a) (mkDoc Ku rs b))
    (hK : ∀ h : Hit S, h.doc < maxDoc → ∀ sf, Ku sf (shiftHit start h) = Kl sf h) (hs : List (Hit S)) :
    ∀ (q : PQ.PQ (Hit S)) (k : Nat) (seen : List (Hit S)), (∀ h ∈ hs, h.doc < maxDoc) →
      Kept (fun a b => fdshqLt lib (mkDoc Ku rs a) (mkDoc Ku rs b)) k seen q →
      ∃ q', Sort.insertShifted lib start (q.map (mkDoc Ku rs)) (hs.map (mkDoc Kl rs)) = .ok (q'.map (mkDoc Ku rs)) ∧
        Kept (fun a b => fdshqLt lib (mkDoc Ku rs a) (mkDoc Ku rs b)) k (seen ++ hs.map (shiftHit start)) q' := by
  induction hs with
  | nil => intro q k seen _ h; exact ⟨q, rfl, by simpa using h⟩
  | cons x xs ih =>
    intro q k seen hm h
    obtain ⟨q1, i, o, e1, k1⟩ := h.insert hlt (shiftHit start x)
    obtain ⟨q2, e2, k2⟩ := ih q1 k _ (fun h hh => hm h (List.mem_cons_of_mem _ hh)) k1
    refine ⟨q2, ?_, by simpa using k2⟩
    simp only [Sort.insertShifted, List.map_cons]
    have hx : ({ mkDoc Kl rs x with doc := (mkDoc Kl rs x).doc + start } : FieldDoc S) = mkDoc Ku rs (shiftHit start x) := by
      simp only [mkDoc, shiftHit, FieldDoc.mk.injEq, true_and]
      refine List.map_congr_left fun sf _ => ?_
      have := hK x (hm x (List.mem_cons_self ..)) sf
      rw [shiftHit] at this
      rw [this]
    have := PQ.insert_map (mkDoc Ku rs) (fdshqLt lib) q (shiftHit start x)
    rw [e1] at this
    rw [hx, this]
    simp only [PQ.mapR_ok, Res.ok_bind]
    exact e2

/-- All sub-searchers are usable. -/
inductive AllSortOK (lib : Lib S) (sort rs : List SortField) : List (Sort.SubIn S) → List (Nat → Bool) → Prop
  | nil : AllSortOK lib sort rs [] []
  | cons {s p ss ps} : SubSortOK lib sort rs s p → AllSortOK lib sort rs ss ps → AllSortOK lib sort rs (s :: ss) (p :: ps)

theorem AllSortOK.plain {lib : Lib S} {sort rs : List SortField} {subs : List (Sort.SubIn S)} {ps : List (Nat → Bool)} (h : AllSortOK lib sort rs subs ps) :
    AllOK (subs.map plainSub) ps := by
  induction h with
  | nil => exact .nil
  | cons h1 _ ih => exact .cons h1.plain ih

/-- Sorts a sub-searcher may get: the one given or what an earlier one made of it. -/
theorem SubSortOK.again {lib : Lib S} {sort rs : List SortField} {s : Sort.SubIn S} {p : Nat → Bool} (h : SubSortOK lib sort rs s p) :
    SubSortOK lib rs rs s p := by
  refine ⟨h.plain, h.reader, fun h1 h2 sf hsf => ?_, fun h1 h2 => ?_⟩
  · rw [← h.settled h1 h2, List.mem_map] at hsf
    obtain ⟨x, hx, rfl⟩ := hsf
    exact Usable.settled (h.usable h1 h2 x hx)
  · conv => lhs; rw [← h.settled h1 h2]
    rw [List.map_map]
    conv => rhs; rw [← h.settled h1 h2]
    exact List.map_congr_left fun x hx => settled_twice (h.usable h1 h2 x hx)

theorem AllSortOK.again {lib : Lib S} {sort rs : List SortField} {subs : List (Sort.SubIn S)} {ps : List (Nat → Bool)} (h : AllSortOK lib sort rs subs ps) :
    AllSortOK lib rs rs subs ps := by
  induction h with
  | nil => exact .nil
  | cons h1 _ ih => exact .cons h1.again ih

theorem mergeSort_take_kept {α : Type} {lt : α → α → Bool} (hlt : StrictWeak lt) (acc : List α) (k : Nat) :
    ((acc.mergeSort fun a b => !lt b a).take k ++ (acc.mergeSort fun a b => !lt b a).drop k).Perm acc ∧
    (∀ a ∈ (acc.mergeSort fun a b => !lt b a).take k, ∀ b ∈ (acc.mergeSort fun a b => !lt b a).drop k, lt b a = false) := by
  refine ⟨by rw [List.take_append_drop]; exact List.mergeSort_perm _ _, ?_⟩
  have hpw : (acc.mergeSort fun a b => !lt b a).Pairwise (fun a b => (!lt b a) = true) := by
    refine List.pairwise_mergeSort (fun a b c h1 h2 => ?_) (fun a b => ?_) acc
    · simp only [Bool.not_eq_true'] at *
      exact hlt.negTrans _ _ _ h2 h1
    · cases h1 : lt b a with
      | false => rfl
      | true => rw [hlt.asymm _ _ h1]; rfl
  rw [← List.take_append_drop k (acc.mergeSort fun a b => !lt b a), List.pairwise_append] at hpw
  intro a ha b hb
  simpa using hpw.2.2 a ha b hb

theorem mseaLoop_sorted {lib : Lib S} (hl : LibOK lib) (pf : Option (Nat → S → Option S)) (mx : Nat) (hmx : 0 < mx) (hle : mx ≤ 2147483647)
    (rs : List SortField) (hrs : ∀ sf ∈ rs, sf.type ≠ .byte ∧ sf.type ≠ .auto) (all : List (Sort.SubIn S)) :
    ∀ (ss : List (Sort.SubIn S)) (ps : List (Nat → Bool)) (pre : List (Sort.SubIn S)) (sort : List SortField) (q : PQ.PQ (Hit S)) (total : Nat) (best : S) (seen : List (Hit S)),
      all = pre ++ ss → AllSortOK lib sort rs ss ps →
      Kept (fun a b => listedBefore (unionValues lib all) rs b a) mx seen q → lib.lt best lib.zero = false →
      ∃ q' sort', Sort.mseaLoop lib pf (mx : Int) ⟨q.map (mkDoc (keyU lib all) rs), total, best⟩ sort (Sort.mkSubs (pre.map (·.reader.maxDoc)).sum ss) =
          (.ok ⟨q'.map (mkDoc (keyU lib all) rs), total + (unionHits (adjustOf pf) (pre.map (·.reader.maxDoc)).sum (ss.map plainSub) ps).length,
            bestScore lib.lt best (unionHits (adjustOf pf) (pre.map (·.reader.maxDoc)).sum (ss.map plainSub) ps)⟩, sort') ∧
        Kept (fun a b => listedBefore (unionValues lib all) rs b a) mx (seen ++ unionHits (adjustOf pf) (pre.map (·.reader.maxDoc)).sum (ss.map plainSub) ps) q' := by
  have hlt : (fun a b => fdshqLt lib (mkDoc (keyU lib all) rs a) (mkDoc (keyU lib all) rs b)) = fun a b => listedBefore (unionValues lib all) rs b a := by
    funext a b
    exact Sort.fdshqLt_listed (fun sf hsf x y => fdCompare_signed hl all (hrs sf hsf).2 (hrs sf hsf).1 x y) a b
  have hsw := Sort.listedBefore_strictWeak (v := unionValues lib all) hl rs
  have hswf := Sort.strictWeak_flip hsw
  intro ss
  induction ss with
  | nil =>
    intro ps pre sort q total best seen _ hok hk _
    cases hok
    exact ⟨q, sort, by simp [Sort.mkSubs, Sort.mseaLoop, unionHits, bestScore], by simpa [unionHits] using hk⟩
  | cons s ss ih =>
    intro ps pre sort q total best seen hall hok hk hz
    cases hok with
    | @cons _ p _ ps h1 hrest =>
    have hsum : ((pre ++ [s]).map (·.reader.maxDoc)).sum = (pre.map (·.reader.maxDoc)).sum + s.reader.maxDoc := by simp
    have hmk : Sort.mkSubs (pre.map (·.reader.maxDoc)).sum (s :: ss) =
        ⟨(pre.map (·.reader.maxDoc)).sum, s.reader, s.scorer, s.bits⟩ :: Sort.mkSubs ((pre ++ [s]).map (·.reader.maxDoc)).sum ss := by
      rw [hsum]; rfl
    have hun : unionHits (adjustOf pf) (pre.map (·.reader.maxDoc)).sum ((s :: ss).map plainSub) (p :: ps) =
        (accepted p (adjustOf pf) (s.scorer.getD [])).map (shiftHit (pre.map (·.reader.maxDoc)).sum) ++
          unionHits (adjustOf pf) ((pre ++ [s]).map (·.reader.maxDoc)).sum (ss.map plainSub) ps := by
      rw [hsum]; rfl
    rw [hmk, hun]
    rw [Sort.mseaLoop]
    dsimp only
    by_cases hact : s.scorer ≠ none ∧ s.reader.numDocs ≠ 0
    · obtain ⟨hsc, hnd⟩ := hact
      obtain ⟨hits, hhits⟩ := Option.ne_none_iff_exists'.1 hsc
      have g1 := h1.plain.distinct
      have g2 := h1.plain.bound
      have g3 := h1.plain.count
      simp only [plainSub, hhits, Option.getD_some] at g1 g2 g3
      obtain ⟨rd', e, _, _⟩ := sorted_page hl h1.reader (h1.usable hsc hnd) hits g1 g2 g3 s.bits p h1.plain.bits pf hnd 0 mx hmx (Or.inl (by omega))
      rw [show ((0 : Nat) : Int) = 0 from rfl, h1.settled hsc hnd] at e
      rw [hhits, e]
      dsimp only
      rw [List.drop_zero, Option.getD_some]
      have haccb : ∀ h ∈ accepted p (adjustOf pf) hits, h.doc < s.reader.maxDoc := by
        intro h hh
        obtain ⟨z, hz, hzd⟩ := accepted_mem hh
        rw [← hzd]; exact g2 z hz
      generalize hacc : accepted p (adjustOf pf) hits = acc at *
      have hloc : ∀ d, d < s.reader.maxDoc → locate all (d + (pre.map (·.reader.maxDoc)).sum) = (s.reader.terms, d) := by
        intro d hd; rw [hall]; exact locate_append pre s ss d hd
      have hSb : ∀ h ∈ sortedHits (valuesIn lib s.reader.terms) rs acc, h.doc < s.reader.maxDoc :=
        fun h hh => haccb h ((List.mergeSort_perm _ _).mem_iff.1 hh)
      have hlen : (sortedHits (valuesIn lib s.reader.terms) rs acc).length = acc.length := List.length_mergeSort _
      obtain ⟨q1, e1, k1⟩ := insertShifted_sorted (Kl := keyIn lib s.reader.terms) (Ku := keyU lib all) (rs := rs) (start := (pre.map (·.reader.maxDoc)).sum) (maxDoc := s.reader.maxDoc)
        (by rw [hlt]; exact hswf) (by
          intro h hh sf
          simp only [keyU, shiftHit, keyIn]
          rw [hloc h.doc hh])
        ((sortedHits (valuesIn lib s.reader.terms) rs acc).take mx) q mx seen
        (fun h hh => hSb h (List.mem_of_mem_take hh)) (by rw [hlt]; exact hk)
      rw [e1]
      dsimp only
      rw [hlt] at k1
      have k2 : Kept (fun a b => listedBefore (unionValues lib all) rs b a) mx (seen ++ acc.map (shiftHit (pre.map (·.reader.maxDoc)).sum)) q1 := by
        obtain ⟨hp, ho⟩ := mergeSort_take_kept (Sort.listedBefore_strictWeak (v := valuesIn lib s.reader.terms) hl rs) acc mx
        refine Kept.extend hswf (RT := ((sortedHits (valuesIn lib s.reader.terms) rs acc).drop mx).map (shiftHit (pre.map (·.reader.maxDoc)).sum)) k1 ?_ ?_ ?_
        · rw [← List.map_append]; exact hp.map _
        · rw [List.length_map, List.length_take, List.length_map, hlen]
        · intro a ha b hb
          rw [List.mem_map] at ha hb
          obtain ⟨a, ha, rfl⟩ := ha
          obtain ⟨b, hb, rfl⟩ := hb
          rw [listedBefore_union (hloc b.doc (hSb b (List.mem_of_mem_drop hb))) (hloc a.doc (hSb a (List.mem_of_mem_take ha)))]
          exact ho a ha b hb
      have hms : (if (((sortedHits (valuesIn lib s.reader.terms) rs acc).take mx).map (mkDoc (keyIn lib s.reader.terms) rs)).length > 0 ∧ lib.lt best (bestScore lib.lt lib.zero acc) = true
          then bestScore lib.lt lib.zero acc else best) = bestScore lib.lt best (acc.map (shiftHit (pre.map (·.reader.maxDoc)).sum)) := by
        have hmap : ∀ z, bestScore lib.lt z (acc.map (shiftHit (pre.map (·.reader.maxDoc)).sum)) = bestScore lib.lt z acc := by
          intro z; unfold bestScore; rw [List.foldl_map]; rfl
        rw [hmap]
        have hlm : lmax lib.lt best lib.zero = best := by unfold lmax; rw [hz]; rfl
        have := bestScore_lmax hl.float best lib.zero acc
        rw [hlm] at this
        rw [this]
        unfold lmax
        by_cases hne : acc = []
        · subst hne; simp [bestScore, hz]
        · have hpos : (((sortedHits (valuesIn lib s.reader.terms) rs acc).take mx).map (mkDoc (keyIn lib s.reader.terms) rs)).length > 0 := by
            rw [List.length_map, List.length_take, hlen]
            have := List.length_pos_iff.mpr hne; omega
          by_cases hb : lib.lt best (bestScore lib.lt lib.zero acc) = true
          · rw [if_pos ⟨hpos, hb⟩, if_pos hb]
          · rw [if_neg (fun h => hb h.2), if_neg hb]
      rw [hms]
      obtain ⟨q', sort', e2, k3⟩ := ih ps (pre ++ [s]) rs q1 (total + acc.length) (bestScore lib.lt best (acc.map (shiftHit (pre.map (·.reader.maxDoc)).sum)))
        _ (by rw [hall]; simp) hrest.again k2 (hl.float.negTrans _ _ _ (bestScore_ge hl.float best _) hz)
      refine ⟨q', sort', ?_, ?_⟩
      · rw [e2]
        simp only [List.length_append, List.length_map, Nat.add_assoc, bestScore, List.foldl_append]
      · rw [← List.append_assoc]; exact k3
    · have hnil : s.scorer.getD [] = [] := by
        rcases Classical.em (s.scorer = none) with h | h
        · rw [h]; rfl
        · exact h1.plain.live (Classical.byContradiction fun h' => hact ⟨h, h'⟩)
      have hsub : iseaSorted lib s.reader sort s.scorer s.bits pf 0 (mx : Int) = (.ok ⟨0, [], lib.zero⟩, sort, s.reader) := by
        obtain ⟨mx', e1, _, _⟩ := sortArgs_ok 0 mx hmx (Or.inl (by omega))
        unfold iseaSorted
        rw [show ((0 : Nat) : Int) = 0 from rfl] at e1
        rw [e1]
        dsimp only
        cases hsc : s.scorer with
        | none => rfl
        | some hits =>
          dsimp only
          rw [if_pos (Classical.byContradiction fun h => hact ⟨by rw [hsc]; simp, h⟩)]
      rw [hsub, hnil]
      dsimp only [Sort.insertShifted]
      rw [show (if ([] : List (FieldDoc S)).length > 0 ∧ lib.lt best lib.zero = true then lib.zero else best) = best by simp]
      obtain ⟨q', sort', e2, k3⟩ := ih ps (pre ++ [s]) sort q total best seen (by rw [hall]; simp) hrest hk hz
      refine ⟨q', sort', ?_, ?_⟩
      · rw [Nat.add_zero, e2]; simp [accepted]
      · simpa [accepted] using k3

/-- **C52, several indexes.** A sorted search of a multi-searcher returns the page of the union of the
hits in the order of the sort, each document having the values of its own index. Missing, with
witnesses below: BYTE fields (compared by their place in their own index) and AUTO fields that stand
for different types in different indexes. -/
theorem c52_multi_partial {lib : Lib S} (hl : LibOK lib) (sort rs : List SortField) (hrs : ∀ sf ∈ rs, sf.type ≠ .byte ∧ sf.type ≠ .auto)
    (subs : List (Sort.SubIn S)) (ps : List (Nat → Bool)) (hok : AllSortOK lib sort rs subs ps) (pf : Option (Nat → S → Option S))
    (first num : Nat) (hnum : 0 < num) (hfit : first + num ≤ 2147483647 ∨ num = 2147483647)
    (hcount : (unionHits (adjustOf pf) 0 (subs.map plainSub) ps).length ≤ 2147483647) :
    ∃ td sort', mseaSorted lib (Sort.mkSubs 0 subs) sort pf (first : Int) (num : Int) = (.ok td, sort') ∧
      SortedAnswer (unionValues lib subs) rs (unionHits (adjustOf pf) 0 (subs.map plainSub) ps) first num td := by
  obtain ⟨mx, e1, hmxle, hmx⟩ := sortArgs_ok first num hnum hfit
  obtain ⟨q, sort', e2, k2⟩ := mseaLoop_sorted hl pf mx (by omega) hmxle rs hrs subs subs ps [] sort (PQ.new mx) 0 lib.zero []
    rfl hok (kept_new _ _) (hl.float.irrefl _)
  simp only [List.map_nil, List.sum_nil, List.nil_append, Nat.zero_add] at e2 k2
  have hlt : (fun a b => fdshqLt lib (mkDoc (keyU lib subs) rs a) (mkDoc (keyU lib subs) rs b)) = fun a b => listedBefore (unionValues lib subs) rs b a := by
    funext a b
    exact Sort.fdshqLt_listed (fun sf hsf x y => fdCompare_signed hl subs (hrs sf hsf).2 (hrs sf hsf).1 x y) a b
  have hswf := Sort.strictWeak_flip (Sort.listedBefore_strictWeak (v := unionValues lib subs) hl rs)
  have hdd := unionHits_distinct (adjustOf pf) _ _ 0 hok.plain
  refine ⟨⟨_, (((sortedHits (unionValues lib subs) rs (unionHits (adjustOf pf) 0 (subs.map plainSub) ps)).drop first).take num).map (mkDoc (keyU lib subs) rs), _⟩,
    sort', ?_, rfl, hitOf_mkDoc _ _ _, rfl⟩
  unfold mseaSorted
  rw [e1]
  dsimp only
  rw [show (PQ.new (mx : Int).toNat : PQ.PQ (FieldDoc S)) = (PQ.new mx : PQ.PQ (Hit S)).map (mkDoc (keyU lib subs) rs) from by
    simp [PQ.PQ.map, PQ.new]]
  rw [e2]
  dsimp only
  rw [PQ.pageBy_map, hlt]
  simp only [Int.toNat_natCast]
  rw [Search.pageBy_spec hswf k2 (fun a ha b hb h1 h2 => hdd.inj ha hb (Sort.listedBefore_tie _ a b h2 h1)) first num (by
    rcases hmx with h | ⟨h1, h2⟩
    · exact Or.inl h
    · right; omega)]
  rfl

/-- A reader as it is opened. -/
theorem readerOK_opened (lib : Lib S) (maxDoc numDocs : Nat) (fields : List (List Byte × List (List Byte × List Nat))) (h : numDocs ≤ maxDoc) :
    ReaderOK lib ⟨maxDoc, numDocs, fields, [], false⟩ := ⟨rfl, (fun f cls ix h => by simp at h), h⟩

/-! ### A concrete library -/

/-- Leading decimal digits: their value and number. -/
def digits : List Byte → Nat → Nat → Nat × Nat
  | [], v, n => (v, n)
  | c :: cs, v, n => if 48 ≤ c.toNat ∧ c.toNat ≤ 57 then digits cs (10 * v + (c.toNat - 48)) (n + 1) else (v, n)

/-- A library with unsigned decimal numbers, the C locale and scores that are naturals. -/
def sampleLib : Lib Nat where
  lt a b := decide (a < b)
  zero := 0
  coll s t := if s < t then -1 else if t < s then 1 else 0
  scanD t := if (digits t 0 0).2 = 0 then none else some (digits t 0 0).2
  scanLd t := if (digits t 0 0).2 = 0 then none else some (digits t 0 0).1
  scanF t := if (digits t 0 0).2 = 0 then none else some (digits t 0 0)

theorem sampleLib_ok : LibOK sampleLib := by
  refine ⟨?_, ⟨?_, ?_⟩, rfl⟩
  · constructor
    · intro a b h
      simp only [sampleLib, decide_eq_true_eq, decide_eq_false_iff_not] at *
      omega
    · intro a b c h1 h2
      simp only [sampleLib, decide_eq_false_iff_not] at *
      omega
  · intro s t
    simp only [sampleLib]
    by_cases h1 : s < t
    · have := List.lt_asymm h1
      simp [h1, this]
    · by_cases h2 : t < s <;> simp [h1, h2]
  · intro s t u h1 h2
    simp only [sampleLib] at *
    have h1' : s ≤ t := by
      by_cases h : t < s
      · have := List.lt_asymm h
        simp [h, this] at h1
      · exact List.not_lt.1 h
    have h2' : t ≤ u := by
      by_cases h : u < t
      · have := List.lt_asymm h
        simp [h, this] at h2
      · exact List.not_lt.1 h
    have h3 := List.le_trans h1' h2'
    have : ¬ u < s := List.not_lt.2 h3
    by_cases h : s < u <;> simp [h, this]

/-- Four documents: colours (`c`: "blue" 1 3, "red" 0) and sizes (`n`: "10" 0, "9" 1 2 3). -/
def sampleReader : Reader Nat :=
  ⟨4, 4, [([99], [([98, 108, 117, 101], [1, 3]), ([114, 101, 100], [0])]), ([110], [([49, 48], [0]), ([57], [1, 2, 3])])], [], false⟩

/-- By size descending (AUTO), then by colour. -/
def sampleSort : List SortField := [⟨[110], .auto, true⟩, ⟨[99], .string, false⟩]

def sampleHits : List (Hit Nat) := [⟨0, 1⟩, ⟨1, 7⟩, ⟨2, 3⟩, ⟨3, 5⟩]

theorem sample_usable : ∀ sf ∈ sampleSort, Usable sampleLib sampleReader sf := by
  intro sf h
  have : sf = ⟨[110], .auto, true⟩ ∨ sf = ⟨[99], .string, false⟩ := by simpa [sampleSort] using h
  rcases this with rfl | rfl
  · exact ⟨by decide, by decide, ⟨by decide, by decide, by decide, by decide⟩⟩
  · exact ⟨by decide, by decide, ⟨by decide, by decide, by decide, by decide⟩⟩

/-- Non-vacuity of `c52_sorted_page_partial`: its hypotheses hold of the sample, whatever the page. -/
example (first num : Nat) (hnum : 0 < num) (hfit : first + num ≤ 2147483647) :=
  c52_sorted_page_partial sampleLib_ok (readerOK_opened sampleLib 4 4 _ (by decide)) sample_usable sampleHits (by decide) (by decide) (by decide) none
    (fun _ => true) (fun _ => rfl) none (by decide) first num hnum (Or.inl hfit)

/-- and the model computes: 0 is the largest, then blue 1 and 3, then 2 without a colour. -/
example : (match (iseaSorted sampleLib sampleReader sampleSort (some sampleHits) none none 0 4).1 with | .ok td => td.hits.map hitOf | _ => []) =
    [⟨0, 1⟩, ⟨1, 7⟩, ⟨3, 5⟩, ⟨2, 3⟩] := by decide

/-- Non-vacuity of `c52_session_partial`: the second search finds both fields cached. -/
example := c52_session_partial sampleLib_ok (readerOK_opened sampleLib 4 4 sampleReader.fields (by decide))
  [⟨sampleSort, sampleHits, none, fun _ => true, none, 0, 4⟩, ⟨sampleSort, sampleHits, none, fun _ => true, none, 2, 1⟩] (by
    intro r hr
    simp only [List.mem_cons, List.not_mem_nil, or_false] at hr
    rcases hr with rfl | rfl
    · exact ⟨sample_usable, by decide, by decide, by decide, fun _ => rfl, by decide, by decide, by decide⟩
    · exact ⟨sample_usable, by decide, by decide, by decide, fun _ => rfl, by decide, by decide, by decide⟩)

/-- A second index: one document of size "12". -/
def sampleOther : Reader Nat := ⟨1, 1, [([99], []), ([110], [([49, 50], [0])])], [], false⟩

/-- The sort after the first search. -/
def sampleSettled : List SortField := [⟨[110], .integer, true⟩, ⟨[99], .string, false⟩]

theorem sampleOther_usable : ∀ sf ∈ sampleSort, Usable sampleLib sampleOther sf := by
  intro sf h
  have : sf = ⟨[110], .auto, true⟩ ∨ sf = ⟨[99], .string, false⟩ := by simpa [sampleSort] using h
  rcases this with rfl | rfl
  · exact ⟨by decide, by decide, ⟨by decide, by decide, by decide, by decide⟩⟩
  · exact ⟨by decide, by decide, ⟨by decide, by decide, by decide, by decide⟩⟩

/-- Non-vacuity of `c52_multi_partial`. -/
example (first num : Nat) (hnum : 0 < num) (hfit : first + num ≤ 2147483647) :=
  c52_multi_partial sampleLib_ok sampleSort sampleSettled (by decide) [⟨sampleReader, some sampleHits, none⟩, ⟨sampleOther, some [⟨0, 2⟩], none⟩] [fun _ => true, fun _ => true]
    (.cons ⟨⟨by decide, by decide, by decide, fun _ => rfl, by decide⟩, readerOK_opened sampleLib 4 4 _ (by decide), fun _ _ => sample_usable, fun _ _ => by decide⟩
      (.cons ⟨⟨by decide, by decide, by decide, fun _ => rfl, by decide⟩, readerOK_opened sampleLib 1 1 _ (by decide), fun _ _ => sampleOther_usable, fun _ _ => by decide⟩ .nil))
    none first num hnum (Or.inl hfit) (by decide)

example : (match (mseaSorted sampleLib (Sort.mkSubs 0 [⟨sampleReader, some sampleHits, none⟩, ⟨sampleOther, some [⟨0, 2⟩], none⟩]) sampleSort none 0 3).1 with
    | .ok td => td.hits.map hitOf | _ => []) = [⟨4, 2⟩, ⟨0, 1⟩, ⟨1, 7⟩] := by decide

/-! ### Where the property fails -/

/-- **C52 fails for byte sorts of several indexes.** Of "z" (the only term of the first index) and "b"
(the second term of the other), the search lists "z" first, although alphabetically "b" comes first:
the values compared are places in different indexes. -/
theorem c52_violated_byte_across_indexes : ∃ (a b : Reader Nat) (sort : List SortField), ReaderOK sampleLib a ∧ ReaderOK sampleLib b ∧
    (∀ sf ∈ sort, Usable sampleLib a sf) ∧ (∀ sf ∈ sort, Usable sampleLib b sf) ∧
    (match (mseaSorted sampleLib (Sort.mkSubs 0 [⟨a, some [⟨0, 1⟩], none⟩, ⟨b, some [⟨1, 1⟩], none⟩]) sort none 0 10).1 with
      | .ok td => td.hits.map (·.doc) | _ => []) = [0, 2] ∧
    listedBefore (unionValues sampleLib [⟨a, some [⟨0, 1⟩], none⟩, ⟨b, some [⟨1, 1⟩], none⟩]) sort ⟨2, 1⟩ ⟨0, 1⟩ = true := by
  refine ⟨⟨1, 1, [([110], [([122], [0])])], [], false⟩, ⟨2, 2, [([110], [([97], [0]), ([98], [1])])], [], false⟩, [⟨[110], .byte, false⟩],
    readerOK_opened sampleLib 1 1 _ (by decide), readerOK_opened sampleLib 2 2 _ (by decide), ?_, ?_, by decide, by decide⟩
  · intro sf h
    rw [List.mem_singleton.1 h]
    exact ⟨by decide, by decide, ⟨by decide, by decide, by decide, by decide⟩⟩
  · intro sf h
    rw [List.mem_singleton.1 h]
    exact ⟨by decide, by decide, ⟨by decide, by decide, by decide, by decide⟩⟩

/-- **A sort by a field the index does not know, type AUTO, dereferences NULL** - for every library,
index, matches and page. With an explicit type the same search raises an exception. -/
theorem c52_violated_unknown_field_auto (lib : Lib S) (rd : Reader S) (f : List Byte) (rev : Bool) (hf : rd.terms f = none) (h0 : rd.numDocs ≠ 0)
    (sfs : List SortField) (hits : List (Hit S)) (bits : Option BitVector.BV) (pf : Option (Nat → S → Option S)) (first num : Nat) (hnum : 0 < num)
    (hfit : first + num ≤ 2147483647 ∨ num = 2147483647) :
    (iseaSorted lib rd (⟨f, .auto, rev⟩ :: sfs) (some hits) bits pf (first : Int) (num : Int)).1 = .ub := by
  obtain ⟨mx, e1, _, _⟩ := sortArgs_ok first num hnum hfit
  unfold iseaSorted
  rw [e1]
  dsimp only
  rw [if_neg h0]
  simp [Sort.mkSorter, Sort.getComparator, Sort.resolve, hf]

/-- **A sorted search by an unknown field spoils the reader**: it raises, and then any sort of the
same reader by an indexed field waits forever for the mutex the first one left locked. -/
theorem c52_violated_search_after_failure (lib : Lib S) (rd : Reader S) (hr : rd.locked = false) (f : List Byte) (cls : Sort.SType)
    (hcls : cls ≠ .score ∧ cls ≠ .doc ∧ cls ≠ .auto) (rev : Bool) (hf : rd.terms f = none) (h0 : rd.numDocs ≠ 0) (hits : List (Hit S))
    (first num : Nat) (hnum : 0 < num) (hfit : first + num ≤ 2147483647 ∨ num = 2147483647) (g : List Byte) (cls' : Sort.SType)
    (hcls' : cls' ≠ .score ∧ cls' ≠ .doc ∧ cls' ≠ .auto) :
    let r := iseaSorted lib rd [⟨f, cls, rev⟩] (some hits) none none (first : Int) (num : Int)
    r.1 = .raise .arg ∧ (iseaSorted lib r.2.2 [⟨g, cls', rev⟩] (some hits) none none (first : Int) (num : Int)).1 = .ub := by
  obtain ⟨mx, e1, _, _⟩ := sortArgs_ok first num hnum hfit
  have hk : iseaSorted lib rd [⟨f, cls, rev⟩] (some hits) none none (first : Int) (num : Int) = (.raise .arg, [⟨f, cls, rev⟩], { rd with locked := true }) := by
    unfold iseaSorted
    rw [e1]
    dsimp only
    rw [if_neg h0]
    have hf' : ({ rd with locked := true } : Reader S).terms f = none := hf
    simp [Sort.mkSorter, Sort.getComparator, Sort.resolve, Sort.fieldIndexGet, hf', hr, hcls.1, hcls.2.1, hcls.2.2]
  dsimp only
  rw [hk]
  refine ⟨rfl, ?_⟩
  unfold iseaSorted
  rw [e1]
  dsimp only
  rw [if_neg h0]
  simp [Sort.mkSorter, Sort.getComparator, Sort.resolve, hcls'.1, hcls'.2.1, hcls'.2.2]

/-- **AUTO looks at the first term only**: with "10" and "apple" it takes the field for integers and
reads a variable that was never set. -/
theorem c52_violated_auto_mixed : ∃ rd : Reader Nat, ReaderOK sampleLib rd ∧
    (iseaSorted sampleLib rd [⟨[110], .auto, false⟩] (some [⟨0, 1⟩, ⟨1, 1⟩]) none none 0 10).1 = .ub := by
  refine ⟨⟨2, 2, [([110], [([49, 48], [0]), ([97, 112, 112, 108, 101], [1])])], [], false⟩, readerOK_opened sampleLib 2 2 _ (by decide), by decide⟩

/-- **AUTO over several indexes**: the first index, with numbers, decides for the second, with words;
searched alone the second sorts them as strings. -/
theorem c52_violated_auto_shared : ∃ a b : Reader Nat, ReaderOK sampleLib a ∧ ReaderOK sampleLib b ∧
    (∀ sf ∈ [(⟨[110], .auto, false⟩ : SortField)], Usable sampleLib a sf) ∧ (∀ sf ∈ [(⟨[110], .auto, false⟩ : SortField)], Usable sampleLib b sf) ∧
    (mseaSorted sampleLib (Sort.mkSubs 0 [⟨a, some [⟨0, 1⟩], none⟩, ⟨b, some [⟨0, 1⟩], none⟩]) [⟨[110], .auto, false⟩] none 0 10).1 = .ub := by
  refine ⟨⟨1, 1, [([110], [([49, 48], [0])])], [], false⟩, ⟨1, 1, [([110], [([97], [0])])], [], false⟩,
    readerOK_opened sampleLib 1 1 _ (by decide), readerOK_opened sampleLib 1 1 _ (by decide), ?_, ?_, by decide⟩
  · intro sf h
    rw [List.mem_singleton.1 h]
    exact ⟨by decide, by decide, ⟨by decide, by decide, by decide, by decide⟩⟩
  · intro sf h
    rw [List.mem_singleton.1 h]
    exact ⟨by decide, by decide, ⟨by decide, by decide, by decide, by decide⟩⟩

/-- Floats with a NaN (`none`), written "n". -/
def nanLib : Lib (Option Nat) where
  lt a b := match a, b with | some a, some b => decide (a < b) | _, _ => false
  zero := some 0
  coll := sampleLib.coll
  scanD := sampleLib.scanD
  scanLd := sampleLib.scanLd
  scanF t := if t = [110] then some (none, 1) else (sampleLib.scanF t).map fun x => (some x.1, x.2)

/-- **A NaN breaks the order of the others**: of the values 2, NaN and 1, in this order, the search
lists 2 before 1. -/
theorem c52_violated_nan : ∃ rd : Reader (Option Nat), ReaderOK nanLib rd ∧ (∀ sf ∈ [(⟨[110], .float, false⟩ : SortField)], Usable nanLib rd sf) ∧
    (match (iseaSorted nanLib rd [⟨[110], .float, false⟩] (some [⟨0, some 1⟩, ⟨1, some 1⟩, ⟨2, some 1⟩]) none none 0 10).1 with
      | .ok td => td.hits.map (·.doc) | _ => []) = [0, 1, 2] ∧
    nanLib.lt ((valuesIn nanLib rd.terms).float [110] 2) ((valuesIn nanLib rd.terms).float [110] 0) = true := by
  refine ⟨⟨3, 3, [([110], [([49], [2]), ([50], [0]), ([110], [1])])], [], false⟩, readerOK_opened nanLib 3 3 _ (by decide), ?_, by decide, by decide⟩
  intro sf h
  rw [List.mem_singleton.1 h]
  exact ⟨by decide, by decide, ⟨by decide, by decide, by decide, by decide⟩⟩

#print axioms c52_sorted_page_partial
#print axioms c52_session_partial
#print axioms c52_multi_partial
#print axioms c52_violated_byte_across_indexes
#print axioms c52_violated_unknown_field_auto
#print axioms c52_violated_search_after_failure
#print axioms c52_violated_auto_mixed
#print axioms c52_violated_auto_shared
#print axioms c52_violated_nan
end Ferret.Props
