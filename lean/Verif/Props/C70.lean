import Verif.Lemmas.SpanScorer
import Verif.Props.C58
import Verif.Props.C69

/-!
C70: searching with span queries.

A search with a supported span query gives exactly the documents in which it has spans, each once, in ascending order,
scored by the lengths of its spans there. So do boolean queries over terms and span queries, as long as no span query is
where the boolean scorer jumps: among two or more MUST clauses, in a MUST_NOT clause, in a SHOULD clause beside a MUST
clause. There, and in a search without scores, documents are lost, reported twice, or reported although excluded
(witnesses `c70_and_loses`, `c70_not_reports`, `c70_unscored_twice`), because a jump to a document that the scorer has
already looked at misses it, and a jump that lands after its target leaves the scorer before the document it is on.
-/

namespace Ferret.Props

open Ferret.Span Ferret.Spec
open Ferret.Post (Posting)
open Ferret.Scorer (Arith TermIx Lawful searchEach searchUnscored)

variable {T S L M : Type} {ix : T → List Posting}

/-- **C70 (partial).** A search with a supported span query. -/
theorem c70_span_search_partial (A : Arith S) (hix : IndexOK ix) (q : SpanQ T) (hq : Supported q = true) (tfw : List Int → S) (norm : Int → S) :
    ∃ F hits, spansOf ix q = .ok F ∧ Says ix q F ∧ spanSearch A ix tfw norm q = .ok hits ∧ (hits.map (·.1)).Pairwise (· < ·) ∧
      (∀ d, d ∈ hits.map (·.1) ↔ ∃ x ∈ F, x.doc = d) ∧ ∀ h ∈ hits, h.2 = A.mul (tfw (lengthsIn h.1 F)) (norm h.1) := by
  obtain ⟨s, F, h1, h2⟩ := getSpans_spec hix q.depth q (Nat.le_refl _) hq
  have hR := spanR_new (A := A) h2.state h2.ord tfw norm
  obtain ⟨hits, g1, g2, g3, g4⟩ := Scorer.drain_spec (P := True) (good_span (good_lvl q.depth) A) _ hR (Nat.lt_succ_self _)
  refine ⟨F, hits, ?_, h2.says, ?_, g2, fun d => (g3 d).trans ?_, fun h hh => g4 trivial h hh⟩
  · unfold spansOf spansFrom
    rw [show getSpansFrom (.index ix) q.depth q = .ok s from h1, Res.ok_bind]
    exact collect_spec (good_lvl _) _ F s _ none h2.state (by simpa using h2.ord) (Nat.lt_succ_of_le ((good_lvl _).left h2.state))
  · unfold spanSearch spanScorer
    rw [h1]; exact g1
  · simp only [spanView, List.any_eq_true, decide_eq_true_eq]
    refine ⟨fun h => h.1, fun h => ⟨h, ?_⟩⟩
    obtain ⟨x, hx, rfl⟩ := h
    have := (h2.ord.2 x hx).1
    omega

/-- A term: the documents that have it, each scored by its frequency. -/
theorem c70_term (A : Arith S) (hix : IndexOK ix) (t : T) (tfw : List Int → S) (norm : Int → S) :
    ∃ hits, spanSearch A ix tfw norm (.term t) = .ok hits ∧ (hits.map (·.1)).Pairwise (· < ·) ∧
      (∀ d, d ∈ hits.map (·.1) ↔ ∃ p ∈ ix t, (p.doc : Int) = d) ∧
      ∀ h ∈ hits, ∃ p ∈ ix t, (p.doc : Int) = h.1 ∧ h.2 = A.mul (tfw (List.replicate p.freq 1)) (norm h.1) := by
  obtain ⟨F, hits, _, h2, h3, h4, h5, h6⟩ := c70_span_search_partial A hix (.term t) rfl tfw norm
  have hF : F = termSpans (ix t) := by
    simp only [Says] at h2
    have hb := Span.term_before hix t
    refine List.Perm.eq_of_pairwise (le := SpLt) (fun a b _ _ hab hba => ?_) h2.1 hb ?_
    · simp only [SpLt] at hab hba; omega
    · have nd : ∀ {l : List Sp}, l.Pairwise SpLt → l.Nodup := fun h => h.imp fun hab e => by subst e; simp only [SpLt] at hab; omega
      exact (List.perm_ext_iff_of_nodup (nd h2.1) (nd hb)).2 fun x => (h2.2 x).trans mem_termSpans.symm
  have hdoc : ∀ d, (∃ x ∈ F, x.doc = d) ↔ ∃ p ∈ ix t, (p.doc : Int) = d := by
    intro d
    rw [hF]
    simp only [termSpans, occSpans, List.mem_flatMap, List.mem_map]
    constructor
    · rintro ⟨x, ⟨p, hp, a, _, rfl⟩, rfl⟩
      exact ⟨p, hp, rfl⟩
    · rintro ⟨p, hp, rfl⟩
      have := (hix.docs t).freq p hp
      cases ho : p.occ with
      | nil => rw [ho] at this; simp at this; omega
      | cons a l => exact ⟨⟨p.doc, a, a + 1⟩, ⟨p, hp, a, by simp [ho], rfl⟩, rfl⟩
  refine ⟨hits, h3, h4, fun d => (h5 d).trans (hdoc d), fun h hh => ?_⟩
  obtain ⟨p, hp, hpd⟩ := (hdoc h.1).1 ((h5 h.1).1 (List.mem_map_of_mem hh))
  refine ⟨p, hp, hpd, ?_⟩
  rw [h6 h hh]
  congr 2
  have e1 : ∀ l : List Posting, l.Pairwise (fun a b => a.doc < b.doc) → p ∈ l → lengthsIn p.doc (termSpans l) = p.occ.map fun _ => (1 : Int) := by
    intro l
    induction l with
    | nil => intro _ h; cases h
    | cons a l ih =>
      intro hl hm
      obtain ⟨l1, l2⟩ := List.pairwise_cons.1 hl
      have e2 : lengthsIn p.doc (termSpans (a :: l)) = lengthsIn p.doc (occSpans a.doc a.occ) ++ lengthsIn p.doc (termSpans l) := by
        simp [lengthsIn, termSpans]
      rw [e2]
      have hocc : ∀ (d : Int) (ps : List Int), lengthsIn p.doc (occSpans d ps) = if d = p.doc then ps.map fun _ => (1 : Int) else [] := by
        intro d ps
        split
        · rename_i e
          have e3 : (occSpans d ps).filter (fun x => decide (x.doc = (p.doc : Int))) = occSpans d ps :=
            List.filter_eq_self.2 fun x hx => by
              obtain ⟨a, _, rfl⟩ := List.mem_map.1 hx
              simpa using e
          rw [lengthsIn, e3, occSpans, List.map_map]
          refine List.map_congr_left fun a _ => ?_
          show a + 1 - a = 1
          omega
        · rename_i e
          simp [lengthsIn, occSpans, e, List.filter_map, Function.comp_def]
      rcases List.mem_cons.1 hm with rfl | hm
      · rw [hocc, if_pos rfl]
        have : lengthsIn p.doc (termSpans l) = [] := by
          simp only [lengthsIn, List.map_eq_nil_iff, List.filter_eq_nil_iff, termSpans, List.mem_flatMap, occSpans, List.mem_map, decide_eq_true_eq]
          rintro x ⟨b, hb, c, _, rfl⟩
          have := l1 b hb
          simp only; omega
        rw [this, List.append_nil]
      · have := l1 p hm
        rw [hocc, if_neg (by omega), List.nil_append, ih l2 hm]
  rw [← hpd, hF, e1 _ (hix.docs t).asc hp, List.map_const', ((hix.docs t).freq p hp).1]

/-- A jump with a scorer that has not moved, to a document that has spans: it gets there, and from there `next` goes
through the later documents. -/
theorem c70_skip_partial (A : Arith S) (hix : IndexOK ix) (q : SpanQ T) (hq : Supported q = true) (hj : jumps q = true) (tfw : List Int → S) (norm : Int → S) :
    ∃ F x0, spansOf ix q = .ok F ∧ spanScorer ix tfw norm q = .ok x0 ∧ ∀ t, (∃ y ∈ F, y.doc = t) →
      ∃ x, spanSkipTo (lvlOps q.depth) x0 t = .ok (true, x) ∧ x.doc = t ∧ spanScore A x = A.mul (tfw (lengthsIn t F)) (norm t) ∧
        ∃ hits, Scorer.drain (spanOps A (lvlOps q.depth)) ((spanOps A (lvlOps q.depth)).left x + 1) x = .ok hits ∧ (hits.map (·.1)).Pairwise (· < ·) ∧
          ∀ d, d ∈ hits.map (·.1) ↔ t < d ∧ ∃ y ∈ F, y.doc = d := by
  obtain ⟨s, F, h1, h2⟩ := getSpans_spec hix q.depth q (Nat.le_refl _) hq
  refine ⟨F, SpanSc.new s tfw norm, ?_, ?_, fun t ht => ?_⟩
  · unfold spansOf spansFrom
    rw [show getSpansFrom (.index ix) q.depth q = .ok s from h1, Res.ok_bind]
    exact collect_spec (good_lvl _) _ F s _ none h2.state (by simpa using h2.ord) (Nat.lt_succ_of_le ((good_lvl _).left h2.state))
  · unfold spanScorer; rw [h1]; rfl
  · have h0 : 0 ≤ t := by
      obtain ⟨y, hy, rfl⟩ := ht
      exact (h2.ord.2 y hy).1
    obtain ⟨x, x1, x2⟩ := spanSkipTo_spec (good_lvl q.depth) A h2.state h2.ord hj tfw norm ht
    have g := good_span (P := True) (good_lvl q.depth) A
    obtain ⟨v, s', k1, k2, _, _⟩ := g.score x2 h0
    obtain ⟨hits, g1, g2, g3, _⟩ := Scorer.drain_spec g _ x2 (Nat.lt_succ_self _)
    refine ⟨x, x1, g.doc x2 h0, ?_, hits, g1, g2, fun d => (g3 d).trans ?_⟩
    · have : spanScore A x = v := by
        have : (Res.ok (spanScore A x, 0, x) : Res _) = .ok (v, _, s') := k1
        cases this; rfl
      rw [this, k2 trivial]; rfl
    · simp only [spanView, List.any_eq_true, decide_eq_true_eq]
      exact ⟨fun h => ⟨h.2, h.1⟩, fun h => ⟨h.2, h.1⟩⟩

/-- Is the leaf a term? -/
def c70IsTerm : L ⊕ M → Bool
  | .inl _ => true
  | .inr _ => false

/-- Which documents a leaf matches: those that have the term, those in which the span query has spans. -/
def c70Has (ix : TermIx S L) (spans : M → List Sp) : L ⊕ M → Int → Bool
  | .inl l, d => ix.has l d
  | .inr m, d => (spans m).any fun y => decide (y.doc = d)

/-- The score of a leaf in a document. -/
def c70Score (A : Arith S) (ix : TermIx S L) (spans : M → List Sp) (tfw : M → List Int → S) (norm : Int → S) : L ⊕ M → Int → S
  | .inl l, d => ix.score A l d
  | .inr m, d => A.mul (tfw m (lengthsIn d (spans m))) (norm d)

/-- Boolean queries over terms and span queries, as long as the boolean scorer does not jump with the scorer of a span
query: exactly the documents for which the query holds, with its score (in exact arithmetic). -/
theorem c70_boolean_partial (A : Arith S) (ix : TermIx S L) (hwf : ix.WF) {pos : T → List Posting} (hpos : IndexOK pos) (n : Nat) (sq : M → SpanQ T)
    (hs : ∀ m, Supported (sq m) = true ∧ (sq m).depth ≤ n) (tfw : M → List Int → S) (norm : Int → S) (q : BQuery (L ⊕ M)) (hq : q.shallowW c70IsTerm = true) :
    ∃ (spans : M → List Sp) (hits : List (Int × S)), (∀ m, Says pos (sq m) (spans m)) ∧ searchEach A (mixedOps A n) (mixedEnv ix pos n sq tfw norm) q = .ok hits ∧
      (hits.map (·.1)).Pairwise (· < ·) ∧ (∀ d, d ∈ hits.map (·.1) ↔ q.matches' (c70Has ix spans) ix.live d = true) ∧
      (Lawful A → (∀ a, A.mul a (A.coord 1 1) = a) → ∀ h ∈ hits,
        h.2 = q.score ⟨A.zero, A.add, A.mul, A.coord⟩ (c70Has ix spans) ix.live (c70Score A ix spans tfw norm) ix.allScore h.1) := by
  have hsp : ∀ m, ∃ F, ∃ s, getSpans pos n (sq m) = .ok s ∧ Spans indexLeaves pos n (sq m) s F := fun m => by
    obtain ⟨s, F, h1, h2⟩ := getSpans_spec hpos n (sq m) (hs m).2 (hs m).1
    exact ⟨F, s, h1, h2⟩
  let spans : M → List Sp := fun m => (hsp m).choose
  have hspans : ∀ m, ∃ s, getSpans pos n (sq m) = .ok s ∧ Spans indexLeaves pos n (sq m) s (spans m) := fun m => (hsp m).choose_spec
  clear_value spans
  have g : Scorer.Good (Lawful A) (mixedOps A n) (Scorer.sumR (Scorer.termR A) (SpanR A (LvlR n))) := Scorer.good_sum Scorer.good_term (good_span (good_lvl n) A)
  let lv : L ⊕ M → Scorer.View S := fun l => match l with
    | .inl l => ix.lv A l
    | .inr m => spanView A (tfw m) norm (spans m)
  have hle : Scorer.LeafOKW c70IsTerm (Scorer.sumR (Scorer.termR A) (SpanR A (LvlR n))) (mixedEnv ix pos n sq tfw norm) lv := by
    intro l
    cases l with
    | inl l => exact ⟨Scorer.termR_new (hwf l), fun _ => rfl⟩
    | inr m =>
      obtain ⟨s, h1, h2⟩ := hspans m
      have : (mixedEnv ix pos n sq tfw norm).mkLeaf (.inr m) = some (.inr (SpanSc.new s (tfw m) norm)) := by
        simp only [mixedEnv, h1]
      rw [this]
      exact ⟨spanR_new h2.state h2.ord _ _, (fun h => nomatch h)⟩
  have hsome : ∀ l, ((mixedEnv ix pos n sq tfw norm).mkLeaf l).isSome = true := by
    intro l
    cases l with
    | inl l => rfl
    | inr m =>
      obtain ⟨s, h1, _⟩ := hspans m
      simp only [mixedEnv, h1, Option.isSome]
  obtain ⟨hits, h1, h2, h3, h4⟩ := Scorer.searchEach_spec (P := Lawful A) (fun h => h) g hle q hq
  have hdocs : (fun l => (lv l).docs) = c70Has ix spans := by
    funext l d
    cases l <;> rfl
  have hlive : (mixedEnv ix pos n sq tfw norm).live = ix.live := rfl
  have hsc : (fun l => (lv l).sc) = c70Score A ix spans tfw norm := by
    funext l d
    cases l <;> rfl
  rw [hdocs, hlive] at h3 h4
  rw [hsc] at h4
  refine ⟨spans, hits, fun m => (hspans m).choose_spec.2.says, h1, h2, fun d => (h3 d).trans ⟨fun h => h.1, fun h => ⟨h, ?_⟩⟩, fun hA hc h hh => ?_⟩
  · refine Scorer.matches_nonneg (fun l hl => ?_) (fun hl => ?_) q h
    · cases l with
      | inl l =>
        simp only [c70Has, TermIx.has, List.any_eq_true, decide_eq_true_eq] at hl
        obtain ⟨e, he, rfl⟩ := hl
        exact (hwf l).2 e he
      | inr m =>
        simp only [c70Has, List.any_eq_true, decide_eq_true_eq] at hl
        obtain ⟨y, hy, rfl⟩ := hl
        exact ((hspans m).choose_spec.2.ord.2 y hy).1
    · simp only [TermIx.live, Bool.and_eq_true, decide_eq_true_eq] at hl
      exact hl.1.1
  · rw [h4 hA hsome h hh]
    have hm := (h3 h.1).1 (List.mem_map_of_mem hh)
    exact Scorer.rewrite_score hA hc _ _ _ _ _ q (by rw [Scorer.rewrite_matches]; exact hm.1)

/-! ### Samples and witnesses -/

/-- Twelve times `sim_sloppy_freq`, added up. -/
def c70Tf (l : List Int) : Nat := (l.map fun x => (12 / (x + 1)).toNat).sum

/-- The index of C69, also for term queries. -/
def c70Index : TermIx Nat (Fin 3) :=
  ⟨fun t => (c69Index t).map fun p => ((p.doc : Int), p.freq), fun _ f => 12 * f, fun _ _ => 1, fun _ => false, 3, 1⟩

theorem c70_index_wf : c70Index.WF := fun t => ⟨by revert t; decide, by revert t; decide⟩

/-- Three span queries: the terms 0, 1 and 2. -/
def c70Env := mixedEnv c70Index c69Index 1 (fun t : Fin 3 => SpanQ.term t) (fun _ => c70Tf) fun _ => 1

/-- The hits, for comparison. -/
def c70Shows {α : Type} [BEq α] (r : Res α) (l : α) : Bool :=
  match r with
  | .ok L => L == l
  | _ => false

example : c70Shows (spanSearch natArith c69Index c70Tf (fun _ => 1) c69Query) [(0, 23), (2, 6)] = true := by decide +kernel

example : c70Shows (spanSearch natArith c69Index c70Tf (fun _ => 1) (.term 0)) [(0, 12), (1, 6), (2, 12)] = true := by decide +kernel

example : jumps (SpanQ.term (0 : Fin 3)) = true := rfl

/-- `span(0) AND NOT term 1`, or `term 2` with the word of a span. -/
def c70Query : BQuery (Fin 3 ⊕ Fin 3) := .bool [(.should, .bool [(.must, .leaf (.inr 0)), (.mustNot, .leaf (.inl 1))]), (.should, .leaf (.inr 1))]

example : c70Query.shallowW c70IsTerm = true ∧ ∀ m : Fin 3, Supported (SpanQ.term m) = true ∧ (SpanQ.term m).depth ≤ 1 := by decide

example : c70Shows (searchEach natArith (mixedOps natArith 1) c70Env c70Query) [(0, 12), (1, 6), (2, 12)] = true := by decide +kernel

/-- `+span(0) +span(2)`: documents 0, 1 and 2 have both terms, only document 0 is found. With terms all are found. -/
theorem c70_and_loses :
    c70Shows (searchEach natArith (mixedOps natArith 1) c70Env (.bool [(.must, .leaf (.inr 0)), (.must, .leaf (.inr 2))])) [(0, 36)] = true ∧
    c70Shows (searchEach natArith (mixedOps natArith 1) c70Env (.bool [(.must, .leaf (.inl 0)), (.must, .leaf (.inl 2))])) [(0, 72), (1, 48), (2, 72)] = true := by
  decide +kernel

/-- `+term 0 -span(1)`: document 2 has term 1 and is reported all the same. -/
theorem c70_not_reports :
    c70Shows (searchEach natArith (mixedOps natArith 1) c70Env (.bool [(.must, .leaf (.inl 0)), (.mustNot, .leaf (.inr 1))])) [(1, 12), (2, 24)] = true ∧
    c70Shows (searchEach natArith (mixedOps natArith 1) c70Env (.bool [(.must, .leaf (.inl 0)), (.mustNot, .leaf (.inl 1))])) [(1, 12)] = true := by
  decide +kernel

/-- A search without scores from document 1 on: document 2 is reported twice. -/
theorem c70_unscored_twice :
    c70Shows (searchUnscored natArith (mixedOps natArith 1) c70Env (.leaf (.inr 1)) 5 1) [2, 2] = true ∧
    c70Shows (searchUnscored natArith (mixedOps natArith 1) c70Env (.leaf (.inl 1)) 5 1) [2] = true := by decide +kernel

/-- A jump that lands after its target: the scorer is on document 2 with a score of no spans. -/
theorem c70_lands_unscored :
    (match spanScorer c69Index c70Tf (fun _ => 1) (.term 1) with
    | .ok x => match spanSkipTo (lvlOps 1) x 1 with
      | .ok (b, x) => b && decide (x.doc = 2 ∧ spanScore natArith x = 0)
      | _ => false
    | _ => false) = true := by decide +kernel

#print axioms c70_span_search_partial
#print axioms c70_term
#print axioms c70_skip_partial
#print axioms c70_boolean_partial
#print axioms c70_and_loses
#print axioms c70_not_reports
#print axioms c70_unscored_twice
#print axioms c70_lands_unscored
end Ferret.Props
