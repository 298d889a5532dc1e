import Verif.Lemmas.FilterQuery
import Verif.Spec.Filter
import Verif.Props.C58

/-! C79: filters and filtered queries restrict searches to exactly the documents they let through. -/

namespace Ferret.Props
open Ferret Ferret.Scorer Ferret.Spec Ferret.BitVector

variable {S L : Type}

/-! ### One search -/

theorem holds_bits {bv : BV} (h : WF bv) : Holds bv (fun d => bitAt bv.bits bv.ext d.toNat) := by
  intro d hd
  obtain ⟨n, rfl⟩ := Int.eq_ofNat_of_zero_le hd
  exact get_ok bv n h

/-- **C79, searching with a filter.** Over any postings and for any query, any bits and any post filter: a search reports
exactly what the search without them reports, in the same order and with the same scores, less the documents whose bit is
not set and those the post filter drops, and with the scores of the others multiplied by the factor of the post filter.
(`kept` says what becomes of one hit.) -/
theorem c79_search (A : Arith S) (hA : Lawful A) (ix : TermIx S L) (hix : ix.WF) (q : BQuery L) (hq : q.shallow = true)
    (bv : BV) (hbv : WF bv) (post : Option (Int → S → Option S)) :
    ∃ all hits, searchEach A (termOps A) ix.env q = .ok all ∧ searchKept A (termOps A) ix.env (some bv) post q = .ok hits ∧
      hits = all.filterMap (fun h =>
        if bitAt bv.bits bv.ext h.1.toNat then
          match post with
          | none => some h
          | some f => (f h.1 h.2).map (fun k => (h.1, A.mul k h.2))
        else none) := by
  obtain ⟨all, hits, h1, h2, _, h4⟩ := searchKept_spec (P := True) (fun _ => hA) good_term (ix.leafOK A hix) q hq
    (bits := some bv) (holds_bits hbv) post
  refine ⟨all, hits, h1, h2, (h4 trivial).trans ?_⟩
  cases post <;> rfl

/-- A post filter alone. -/
theorem c79_post (A : Arith S) (hA : Lawful A) (ix : TermIx S L) (hix : ix.WF) (q : BQuery L) (hq : q.shallow = true)
    (f : Int → S → Option S) :
    ∃ all hits, searchEach A (termOps A) ix.env q = .ok all ∧ searchKept A (termOps A) ix.env none (some f) q = .ok hits ∧
      hits = all.filterMap (fun h => (f h.1 h.2).map (fun k => (h.1, A.mul k h.2))) := by
  obtain ⟨all, hits, h1, h2, _, h4⟩ := searchKept_spec (P := True) (fun _ => hA) good_term (ix.leafOK A hix) q hq
    (bits := none) (B := fun _ => true) (fun _ => rfl) (some f)
  exact ⟨all, hits, h1, h2, h4 trivial⟩

/-- **C79, filtered queries.** A filtered query reports exactly the hits of its query whose bits are set, in the same order
and with the same scores; without exact arithmetic, at least the same documents. -/
theorem c79_filtered (A : Arith S) (ix : TermIx S L) (hix : ix.WF) (q : BQuery L) (hq : q.shallow = true) (bv : BV) (hbv : WF bv) :
    ∃ all hits, searchEach A (termOps A) ix.env q = .ok all ∧ searchFiltered A (termOps A) ix.env bv q = .ok hits ∧
      hits.map (·.1) = (all.map (·.1)).filter (fun d => bitAt bv.bits bv.ext d.toNat) ∧
      (Lawful A → hits = all.filter (fun h => bitAt bv.bits bv.ext h.1.toNat)) :=
  searchFiltered_spec (P := Lawful A) id good_term (ix.leafOK A hix) q hq (fun _ => rfl) (holds_bits hbv)

/-- A filtered scorer can stand wherever a scorer can: moving it and jumping with it goes to the next document of its
query with the bit set, for any sequence of moves (`Good` is the contract of all scorers), whatever its query. -/
theorem c79_scorer {σ : Type} {P : Prop} {o : Ops σ S} {R : σ → View S → Int → Bool → Prop} (g : Good P o R) : Good P (fqOps o) (fqR R) :=
  good_filtered g

/-- **C79, query filters.** The bits of a query filter are those of exactly the documents its query matches. -/
theorem c79_bits (A : Arith S) (ix : TermIx S L) (hix : ix.WF) (q : BQuery L) (hq : q.shallow = true) :
    ∃ bv, queryBits A (termOps A) ix.env q = .ok bv ∧ WF bv ∧
      ∀ d : Nat, get bv d = .ok (q.matches' ix.has ix.live d) := by
  obtain ⟨bv, h1, h2, _, h4⟩ := queryBits_spec (A := A) (good_term (P := False)) (ix.leafOK A hix) q hq
  exact ⟨bv, h1, h2, fun d => h4 d (by omega)⟩

/-! ### A filter and a reader over time -/

theorem without_wf {ix : TermIx S L} (h : ix.WF) (del : Int → Bool) : (ix.without del).WF :=
  fun l => ⟨(h l).1.filter _, fun e he => (h l).2 e (List.mem_filter.mp he).1⟩

theorem without_has (ix : TermIx S L) (del : Int → Bool) (l : L) (d : Int) : (ix.without del).has l d = (ix.has l d && !del d) := by
  simp only [TermIx.has, TermIx.without, List.any_filter]
  rw [Bool.eq_iff_iff]
  simp only [List.any_eq_true, Bool.and_eq_true, decide_eq_true_eq]
  constructor
  · rintro ⟨e, he, h1, rfl⟩; exact ⟨⟨e, he, rfl⟩, h1⟩
  · rintro ⟨⟨e, he, rfl⟩, h1⟩; exact ⟨e, he, h1, rfl⟩

theorem without_matches (ix : TermIx S L) (del : Int → Bool) (q : BQuery L) (d : Int) :
    q.matches' (ix.without del).has (ix.without del).live d = nowMatches ix del q d :=
  matches_same (fun l => without_has ix del l d) rfl q

theorem now_live {ix : TermIx S L} {del : Int → Bool} {q : BQuery L} {d : Int} (h : nowMatches ix del q d = true) : del d = false := by
  refine matches_only (fun l hl => ?_) (fun hl => ?_) q h
  · simp only [Bool.and_eq_true, Bool.not_eq_true'] at hl; exact hl.2
  · simp only [Bool.and_eq_true, Bool.not_eq_true'] at hl; exact hl.2

theorem now_same {ix : TermIx S L} {del del' : Int → Bool} {d : Int} (h : del d = del' d) (q : BQuery L) :
    nowMatches ix del q d = nowMatches ix del' q d :=
  matches_same (fun l => by simp only [h]) (by simp only [h]) q

/-- What the filter holds was right when it was made, and nothing deleted then came back. -/
def Cached (ix : TermIx S L) (fq : BQuery L) (st : FState) : Prop :=
  ∀ bv, st.cache = some bv → ∃ del, (∀ d, del d = true → st.del d = true) ∧ Holds bv (fun d => nowMatches ix del fq d)

theorem filtBits_spec (A : Arith S) {ix : TermIx S L} (hix : ix.WF) {fq : BQuery L} (hfq : fq.shallow = true) {st : FState}
    (hc : Cached ix fq st) : ∃ bv del, filtBits A ix fq st = .ok bv ∧ (∀ d, del d = true → st.del d = true) ∧
      Holds bv (fun d => nowMatches ix del fq d) := by
  unfold filtBits
  cases h : st.cache with
  | some bv => obtain ⟨del, h1, h2⟩ := hc bv h; exact ⟨bv, del, rfl, h1, h2⟩
  | none =>
    obtain ⟨bv, h1, _, _, h4⟩ := queryBits_spec (A := A) (good_term (P := False)) ((ix.without st.del).leafOK A (without_wf hix _)) fq hfq
    refine ⟨bv, st.del, h1, fun d h => h, fun d hd => ?_⟩
    rw [h4 d hd]
    exact congrArg Res.ok (without_matches ix st.del fq d)

theorem asks_spec (A : Arith S) {ix : TermIx S L} (hix : ix.WF) {fq : BQuery L} (hfq : fq.shallow = true) {st : FState}
    (hc : Cached ix fq st) {ev : FEvent L} {q : BQuery L} (ha : asked ev = some q) (hq : q.shallow = true) :
    ∃ bv hits, fstep A ix fq st ev = .ok (⟨st.del, some bv⟩, hits) ∧ Cached ix fq ⟨st.del, some bv⟩ ∧
      (hits.map (·.1)).Pairwise (· < ·) ∧
      ∀ d, d ∈ hits.map (·.1) ↔ (nowMatches ix st.del q d = true ∧ nowMatches ix st.del fq d = true) := by
  obtain ⟨bv, del, b1, b2, b3⟩ := filtBits_spec A hix hfq hc
  have hwf := without_wf hix st.del
  obtain ⟨all, a1, a2, a3⟩ := c36_boolean_logic_partial A (ix.without st.del) hwf q hq
  have hcache : Cached ix fq ⟨st.del, some bv⟩ := by
    intro bv' h
    cases h
    exact ⟨del, b2, b3⟩
  have hmem : ∀ d, d ∈ (all.map (·.1)).filter (fun d => nowMatches ix del fq d) ↔
      (nowMatches ix st.del q d = true ∧ nowMatches ix st.del fq d = true) := by
    intro d
    rw [List.mem_filter, a3, without_matches]
    constructor
    · rintro ⟨h1, h2⟩
      refine ⟨h1, ?_⟩
      rw [← now_same (del := del) ?_ fq]
      · exact h2
      · rw [now_live h1, now_live h2]
    · rintro ⟨h1, h2⟩
      refine ⟨h1, ?_⟩
      rw [now_same (del' := st.del) ?_ fq]
      · exact h2
      · rw [now_live h1]
        cases hd : del d with
        | false => rfl
        | true => have := b2 d hd; rw [now_live h1] at this; cases this
  cases ev with
  | delete n => cases ha
  | undeleteAll => cases ha
  | search q' =>
    cases ha
    obtain ⟨all', hits, h1, h2, h3, _⟩ := searchKept_spec (P := False) (A := A) (fun h => h.elim) good_term
      ((ix.without st.del).leafOK A hwf) q hq (bits := some bv) b3 none
    rw [a1] at h1
    cases h1
    refine ⟨bv, hits, by simp only [fstep, b1, Res.ok_bind, h2], hcache, ?_, ?_⟩
    · rw [h3 rfl]; exact a2.filter _
    · rw [h3 rfl]; exact hmem
  | filtered q' =>
    cases ha
    obtain ⟨all', hits, h1, h2, h3, _⟩ := searchFiltered_spec (P := False) (A := A) (fun h => h.elim) good_term
      ((ix.without st.del).leafOK A hwf) q hq (fun _ => rfl) b3
    rw [a1] at h1
    cases h1
    refine ⟨bv, hits, by simp only [fstep, b1, Res.ok_bind, h2], hcache, ?_, ?_⟩
    · rw [h3]; exact a2.filter _
    · rw [h3]; exact hmem

theorem frun_spec (A : Arith S) {ix : TermIx S L} (hix : ix.WF) {fq : BQuery L} (hfq : fq.shallow = true) :
    ∀ (evs : List (FEvent L)) (st : FState), Cached ix fq st →
      (∀ ev ∈ evs, ∀ q, asked ev = some q → q.shallow = true) →
      (st.cache = none → noneBack evs = true) → (st.cache ≠ none → evs.all (fun e => match e with | .undeleteAll => false | _ => true) = true) →
      ∃ st' out, frun A ix fq st evs = .ok (st', out) ∧ ∀ i ev q, evs[i]? = some ev → asked ev = some q →
        ∃ hits, out[i]? = some hits ∧ (hits.map (·.1)).Pairwise (· < ·) ∧
          ∀ d, d ∈ hits.map (·.1) ↔ (nowMatches ix (deletedAfter st.del (evs.take i)) q d = true ∧
            nowMatches ix (deletedAfter st.del (evs.take i)) fq d = true) := by
  intro evs
  induction evs with
  | nil => intro st _ _ _ _; exact ⟨st, [], rfl, fun i ev q h => by simp at h⟩
  | cons ev evs ih =>
    intro st hc hq h1 h2
    have hq' : ∀ ev ∈ evs, ∀ q, asked ev = some q → q.shallow = true := fun e he => hq e (List.mem_cons_of_mem _ he)
    have finish : ∀ (st1 : FState) (hits : List (Int × S)), fstep A ix fq st ev = .ok (st1, hits) → Cached ix fq st1 →
        (st1.cache = none → noneBack evs = true) →
        (st1.cache ≠ none → evs.all (fun e => match e with | .undeleteAll => false | _ => true) = true) →
        (∀ es : List (FEvent L), deletedAfter st.del (ev :: es) = deletedAfter st1.del es) →
        (∀ q, asked ev = some q → (hits.map (·.1)).Pairwise (· < ·) ∧
          ∀ d, d ∈ hits.map (·.1) ↔ (nowMatches ix st.del q d = true ∧ nowMatches ix st.del fq d = true)) →
        ∃ st' out, frun A ix fq st (ev :: evs) = .ok (st', out) ∧ ∀ i e q, (ev :: evs)[i]? = some e → asked e = some q →
          ∃ hits, out[i]? = some hits ∧ (hits.map (·.1)).Pairwise (· < ·) ∧
            ∀ d, d ∈ hits.map (·.1) ↔ (nowMatches ix (deletedAfter st.del ((ev :: evs).take i)) q d = true ∧
              nowMatches ix (deletedAfter st.del ((ev :: evs).take i)) fq d = true) := by
      intro st1 hits e1 c1 k1 k2 kd kq
      obtain ⟨st', out, r1, r2⟩ := ih st1 c1 hq' k1 k2
      refine ⟨st', hits :: out, by simp only [frun, e1, Res.ok_bind, r1], ?_⟩
      intro i e q hi ha
      cases i with
      | zero =>
        simp only [List.getElem?_cons_zero, Option.some.injEq] at hi
        subst hi
        exact ⟨hits, rfl, kq q ha⟩
      | succ i =>
        obtain ⟨hs, g1, g2, g3⟩ := r2 i e q (by simpa using hi) ha
        refine ⟨hs, by simpa using g1, g2, ?_⟩
        rw [List.take_succ_cons, kd]
        exact g3
    cases ha : asked ev with
    | some q =>
      obtain ⟨bv, hits, s1, s2, s3, s4⟩ := asks_spec A hix hfq hc ha (hq ev (by simp) q ha)
      refine finish _ hits s1 s2 (fun h => by simp at h) (fun _ => ?_) (fun es => ?_) (fun q' hq' => ?_)
      · cases hn : st.cache with
        | none => have := h1 hn; simp only [noneBack, ha, Option.isSome_some, if_true] at this; exact this
        | some b =>
          have := h2 (by simp [hn])
          rw [List.all_cons, Bool.and_eq_true] at this
          exact this.2
      · cases ev with
        | delete n => cases ha
        | undeleteAll => cases ha
        | search q' => rfl
        | filtered q' => rfl
      · rw [ha] at hq'; cases hq'; exact ⟨s3, s4⟩
    | none =>
      have k1 : st.cache = none → noneBack evs = true := fun hn => by
        have := h1 hn
        simpa [noneBack, ha] using this
      have k2 : st.cache ≠ none → evs.all (fun e => match e with | .undeleteAll => false | _ => true) = true := fun hn => by
        have := h2 hn
        rw [List.all_cons, Bool.and_eq_true] at this
        exact this.2
      cases ev with
      | search q => cases ha
      | filtered q => cases ha
      | delete n =>
        refine finish ⟨fun x => x == n || st.del x, st.cache⟩ [] rfl ?_ k1 k2 (fun es => ?_) (fun q hq => by cases hq)
        · intro bv hbv
          obtain ⟨del, d1, d2⟩ := hc bv hbv
          exact ⟨del, fun d hd => by simp [d1 d hd], d2⟩
        · simp only [deletedAfter]
          congr 1
      | undeleteAll =>
        refine finish ⟨fun _ => false, st.cache⟩ [] rfl ?_ k1 k2 (fun es => rfl) (fun q hq => by cases hq)
        intro bv hbv
        have := h2 (by rw [hbv]; simp)
        simp at this

/-- **C79, over time (partial).** In any history of deletions, undeletions, searches with a filter and searches for filtered
queries over one reader, every filtered search reports, in ascending order and once each, exactly the documents that are not
deleted at that time and that match both the query and the query of the filter, although the filter's bits are computed only
once.

Missing: undeleting after the first filtered search (`c79_undeleted_stays_hidden`), and queries that are not `shallow` (C36). -/
theorem c79_history_partial (A : Arith S) (ix : TermIx S L) (hix : ix.WF) (fq : BQuery L) (hfq : fq.shallow = true)
    (del : Int → Bool) (evs : List (FEvent L)) (hq : ∀ ev ∈ evs, ∀ q, asked ev = some q → q.shallow = true) (hs : noneBack evs = true) :
    ∃ st out, frun A ix fq ⟨del, none⟩ evs = .ok (st, out) ∧ ∀ i ev q, evs[i]? = some ev → asked ev = some q →
      ∃ hits, out[i]? = some hits ∧ (hits.map (·.1)).Pairwise (· < ·) ∧
        ∀ d, d ∈ hits.map (·.1) ↔ (nowMatches ix (deletedAfter del (evs.take i)) q d = true ∧
          nowMatches ix (deletedAfter del (evs.take i)) fq d = true) :=
  frun_spec A hix hfq evs ⟨del, none⟩ (fun bv h => by cases h) hq (fun _ => hs) (fun h => absurd rfl h)

/-! ### Cases that meet the hypotheses -/

/-- Bits 1, 2 and 10. -/
def someBits : BV := match ConstScore.setAll (newCapa 12) [1, 2, 10] with | .ok bv => bv | _ => newCapa 0

theorem someBits_wf : WF someBits := by
  obtain ⟨bv, h1, h2, _⟩ := setAll_holds [1, 2, 10] 12
  unfold someBits
  rw [h1]
  exact h2

/-- `b d` under a filter and a post filter that drops scores below 2 and triples the others. -/
example : searchEach natArith (termOps natArith) sampleIx.env (.bool [(.should, .leaf 1), (.should, .leaf 3)]) = .ok [(1, 2), (2, 1), (7, 1), (10, 3)] ∧
    searchKept natArith (termOps natArith) sampleIx.env (some someBits) none (.bool [(.should, .leaf 1), (.should, .leaf 3)]) =
      .ok [(1, 2), (2, 1), (10, 3)] ∧
    searchKept natArith (termOps natArith) sampleIx.env (some someBits) (some fun _ s => if s < 2 then none else some 3)
      (.bool [(.should, .leaf 1), (.should, .leaf 3)]) = .ok [(1, 6), (10, 9)] ∧
    searchFiltered natArith (termOps natArith) sampleIx.env someBits (.bool [(.should, .leaf 1), (.should, .leaf 3)]) =
      .ok [(1, 2), (2, 1), (10, 3)] := by decide +kernel

example := c79_search natArith natArith_lawful sampleIx sampleIx_wf (.bool [(.should, .leaf 1), (.should, .leaf 3)]) (by decide) someBits someBits_wf
  (some fun _ s => if s < 2 then none else some 3)
example := c79_post natArith natArith_lawful sampleIx sampleIx_wf (.bool [(.should, .leaf 1), (.should, .leaf 3)]) (by decide) (fun _ s => if s < 2 then none else some 3)
example := c79_filtered natArith sampleIx sampleIx_wf (.bool [(.should, .leaf 1), (.should, .leaf 3)]) (by decide) someBits someBits_wf
example := c79_bits natArith sampleIx sampleIx_wf (.bool [(.mustNot, .leaf 1)]) (by decide)

/-- Documents are deleted between filtered searches; the filter is `-b`. -/
def filterLife : List (FEvent Nat) :=
  [.delete 3, .search (.leaf 3), .delete 10, .filtered (.leaf 0), .search .all, .delete 2, .filtered (.leaf 3)]

example : noneBack filterLife = true ∧ (frun natArith sampleIx (.bool [(.mustNot, .leaf 1)]) ⟨fun d => d == 5, none⟩ filterLife >>= fun r => .ok r.2) =
    .ok [[], [(2, 1), (10, 3)], [], [], [(0, 1), (2, 1), (4, 1), (6, 1), (8, 1), (9, 1), (11, 1)], [], []] := by decide +kernel

example := c79_history_partial natArith sampleIx sampleIx_wf (.bool [(.mustNot, .leaf 1)]) (by decide) (fun d => d == 5) filterLife (by
  intro ev hev q hq
  simp only [filterLife, List.mem_cons, List.not_mem_nil, or_false] at hev
  rcases hev with rfl | rfl | rfl | rfl | rfl | rfl | rfl <;> cases hq <;> decide) (by decide)

/-! ### Where it fails -/

/-- **C79 fails**: document 10 is deleted when the filter is first used and undeleted afterwards. It matches the query and
the query of the filter, but filtered searches go on leaving it out: the bits are kept with the reader. -/
theorem c79_undeleted_stays_hidden :
    (frun natArith sampleIx (.leaf 3) ⟨fun _ => false, none⟩ [.delete 10, .search (.leaf 3), .undeleteAll, .search (.leaf 3), .filtered (.leaf 3)] >>=
      fun r => .ok r.2) = .ok [[], [(2, 1)], [], [(2, 1)], [(2, 1)]] ∧
    nowMatches sampleIx (deletedAfter (fun _ => false) [FEvent.delete 10, .search (.leaf 3), .undeleteAll]) (BQuery.leaf 3) 10 = true := by
  decide +kernel

/-- **C79 fails**: a query for which no scorer is made (a phrase without words, a query with such a required clause) finds
nothing, but the filtered query over it calls the missing scorer. Whatever the bits. -/
theorem c79_filtered_null {σ : Type} (A : Arith S) (o : Ops σ S) (e : Env σ S L) (l : L) (h : e.mkLeaf l = none) (bv : BV) :
    searchEach A o e (.leaf l) = .ok [] ∧ searchFiltered A o e bv (.leaf l) = .ub := by
  simp [searchEach, searchFiltered, rewrite, mkScorer, depth, h]

example : (⟨fun _ => none, fun _ => false, 5, 1⟩ : Env (TermW Nat) Nat Nat).mkLeaf 7 = none := rfl

/-- **C79 fails**: documents 3 and 5 match the filter when it is first used, then document 5 is deleted. A constant-score
query over the filter reports it all the same. -/
theorem c79_constant_score_reports_deleted :
    (ConstScore.filtGetBv (fun _ => ⟨12, [3, 5]⟩) [] 0 >>= fun c => ConstScore.search (fun _ => ⟨12, [3]⟩) c 0 >>= fun r => .ok r.1) = .ok [3, 5] := by
  decide +kernel

#print axioms c79_constant_score_reports_deleted
#print axioms c79_search
#print axioms c79_post
#print axioms c79_filtered
#print axioms c79_scorer
#print axioms c79_bits
#print axioms c79_history_partial
#print axioms c79_undeleted_stays_hidden
#print axioms c79_filtered_null
end Ferret.Props
