import Verif.Model.BoolQuery
import Verif.Lemmas.ScorerLeaf

/-! From boolean queries to the scorers that evaluate them. -/

namespace Ferret.Scorer

open Ferret.Spec

variable {σ S L : Type} {P : Prop}

/-! ### Contract of nested scorers -/

def lvlR (P : Prop) (A : Arith S) (o : Ops σ S) (R : σ → View S → Int → Bool → Prop) : (n : Nat) → Lvl σ S n → View S → Int → Bool → Prop
  | 0 => R
  | n + 1 => sumR R (bscR P A (lvlOps A o n) (lvlR P A o R n))

theorem good_lvl {A : Arith S} (hA : P → Lawful A) {o : Ops σ S} {R} (g : Good P o R) : ∀ n, Good P (lvlOps A o n) (lvlR P A o R n)
  | 0 => g
  | n + 1 => good_sum g (good_bsc hA (good_lvl hA g n))

def leafR (R : σ → View S → Int → Bool → Prop) : Leaf σ S → View S → Int → Bool → Prop := sumR R matchR

theorem good_leaf {o : Ops σ S} {R} (g : Good P o R) : Good P (leafOps o) (leafR R) := good_sum g good_matchAll

/-- The leaf scorers of `e` fulfil the contract for the views `lv`. -/
def LeafOKW (ok : L → Bool) (R : σ → View S → Int → Bool → Prop) (e : Env σ S L) (lv : L → View S) : Prop :=
  ∀ l, match e.mkLeaf l with
    | some s => R s (lv l) (-1) false ∧ (ok l = true → (lv l).skips = true)
    | none => ∀ d, (lv l).docs d = false

/-- All leaf scorers can jump. -/
abbrev LeafOK (R : σ → View S → Int → Bool → Prop) (e : Env σ S L) (lv : L → View S) : Prop := LeafOKW (fun _ => true) R e lv

variable {ok : L → Bool}

mutual
/-- No scorer is made for the query. -/
def nullQ (e : Env σ S L) : BQuery L → Bool
  | .leaf l => (e.mkLeaf l).isNone
  | .all => false
  | .bool cs => nullMust e cs
def nullMust (e : Env σ S L) : List (Occur × BQuery L) → Bool
  | [] => false
  | (o, q) :: cs => (o = .must && nullQ e q) || nullMust e cs
end

mutual
/-- What the scorer made for a query enumerates. -/
def view (A : Arith S) (e : Env σ S L) (lv : L → View S) : BQuery L → View S
  | .leaf l => lv l
  | .all => allView e.deleted e.maxDoc e.allScore
  | .bool cs => boolView A (viewsOf A e lv .must cs) (viewsOf A e lv .should cs) (viewsOf A e lv .mustNot cs)
def viewsOf (A : Arith S) (e : Env σ S L) (lv : L → View S) (k : Occur) : List (Occur × BQuery L) → List (View S)
  | [] => []
  | (o, q) :: cs => if o = k ∧ nullQ e q = false then view A e lv q :: viewsOf A e lv k cs else viewsOf A e lv k cs
end

theorem conjFreeL_mem {cs : List (Occur × BQuery L)} (h : BQuery.conjFreeLW ok cs = true) : ∀ c ∈ cs, c.2.conjFreeW ok = true := by
  induction cs with
  | nil => simp
  | cons c cs ih =>
    obtain ⟨o, q⟩ := c
    rw [BQuery.conjFreeLW, Bool.and_eq_true] at h
    intro c hc
    rcases List.mem_cons.mp hc with rfl | h1
    · exact h.1
    · exact ih h.2 c h1

theorem viewsOf_mem {A : Arith S} {e : Env σ S L} {lv : L → View S} {k cs u} (h : u ∈ viewsOf A e lv k cs) :
    ∃ q, (k, q) ∈ cs ∧ nullQ e q = false ∧ u = view A e lv q := by
  induction cs with
  | nil => simp [viewsOf] at h
  | cons c cs ih =>
    obtain ⟨o, q⟩ := c
    rw [viewsOf] at h
    split at h
    · rename_i h1
      rcases List.mem_cons.mp h with rfl | h2
      · exact ⟨q, by simp [h1.1], h1.2, rfl⟩
      · obtain ⟨q', h3, h4, h5⟩ := ih h2
        exact ⟨q', by simp [h3], h4, h5⟩
    · obtain ⟨q', h3, h4, h5⟩ := ih h
      exact ⟨q', by simp [h3], h4, h5⟩

theorem mem_viewsOf {A : Arith S} {e : Env σ S L} {lv : L → View S} {k cs q} (h : (k, q) ∈ cs) (hn : nullQ e q = false) :
    view A e lv q ∈ viewsOf A e lv k cs := by
  induction cs with
  | nil => simp at h
  | cons c cs ih =>
    obtain ⟨o, q'⟩ := c
    rw [viewsOf]
    rcases List.mem_cons.mp h with h1 | h1
    · cases h1; rw [if_pos ⟨rfl, hn⟩]; simp
    · split
      · exact List.mem_cons_of_mem _ (ih h1)
      · exact ih h1

theorem viewsOf_length_le {A : Arith S} {e : Env σ S L} {lv : L → View S} {k} (cs : List (Occur × BQuery L)) :
    (viewsOf A e lv k cs).length ≤ (cs.filter (·.1 = k)).length := by
  induction cs with
  | nil => simp [viewsOf]
  | cons c cs ih =>
    obtain ⟨o, q⟩ := c
    rw [viewsOf]
    by_cases h : o = k
    · rw [List.filter_cons_of_pos (by simpa using h)]
      split <;> simp only [List.length_cons] <;> omega
    · rw [if_neg (fun h' => h h'.1), List.filter_cons_of_neg (by simpa using h)]
      exact ih

theorem nullMust_iff {e : Env σ S L} {cs} : nullMust e cs = true ↔ ∃ q, (Occur.must, q) ∈ cs ∧ nullQ e q = true := by
  induction cs with
  | nil => simp [nullMust]
  | cons c cs ih =>
    obtain ⟨o, q⟩ := c
    rw [nullMust, Bool.or_eq_true, ih]
    constructor
    · rintro (h | ⟨q', h1, h2⟩)
      · simp only [Bool.and_eq_true, decide_eq_true_eq] at h
        exact ⟨q, by simp [h.1], h.2⟩
      · exact ⟨q', by simp [h1], h2⟩
    · rintro ⟨q', h1, h2⟩
      rcases List.mem_cons.mp h1 with h3 | h3
      · cases h3; left; simp [h2]
      · exact .inr ⟨q', h3, h2⟩

/-- Induction on queries through clause lists. -/
theorem bq_ind {M : BQuery L → Prop} (hl : ∀ l, M (.leaf l)) (ha : M .all)
    (hb : ∀ cs, (∀ c ∈ cs, M c.2) → M (.bool cs)) : ∀ q, M q := by
  intro q
  refine BQuery.rec (motive_1 := M) (motive_2 := fun cs => ∀ c ∈ cs, M c.2) (motive_3 := fun c => M c.2) hl ha hb (by simp) ?_ (fun _ _ h => h) q
  intro c cs h1 h2 x hx
  rcases List.mem_cons.mp hx with rfl | h
  · exact h1
  · exact h2 x h

theorem view_skips {R} {A : Arith S} {e : Env σ S L} {lv : L → View S} (hle : LeafOKW ok R e lv) :
    ∀ q : BQuery L, q.conjFreeW ok = true → nullQ e q = false → (view A e lv q).skips = true := by
  intro q
  induction q using bq_ind with
  | hl l =>
    intro hok hn
    have := hle l
    rw [nullQ] at hn
    rw [view]
    cases hm : e.mkLeaf l with
    | none => rw [hm] at hn; simp at hn
    | some s => rw [hm] at this; rw [BQuery.conjFreeW] at hok; exact this.2 hok
  | ha => intro _ _; rw [view]; rfl
  | hb cs ih =>
    intro h _
    rw [BQuery.conjFreeW, Bool.and_eq_true] at h
    have hall := conjFreeL_mem h.2
    rw [view]
    simp only [boolView, Bool.and_eq_true, decide_eq_true_eq, List.all_eq_true]
    have hle := viewsOf_length_le (A := A) (e := e) (lv := lv) (k := .must) cs
    refine ⟨by have := of_decide_eq_true h.1; omega, fun u hu => ?_⟩
    rcases List.mem_append.mp hu with h1 | h1
    · obtain ⟨q, h3, h4, rfl⟩ := viewsOf_mem h1
      exact ih _ h3 (hall _ h3) h4
    · obtain ⟨q, h3, h4, rfl⟩ := viewsOf_mem h1
      exact ih _ h3 (hall _ h3) h4

theorem conjFree_shallow : ∀ q : BQuery L, q.conjFreeW ok = true → q.shallowW ok = true := by
  intro q
  induction q using bq_ind with
  | hl l => intro _; rw [BQuery.shallowW]
  | ha => intro _; rw [BQuery.shallowW]
  | hb cs ih =>
    intro h
    rw [BQuery.conjFreeW, Bool.and_eq_true] at h
    rw [BQuery.shallowW]
    have hall := conjFreeL_mem h.2
    clear h
    suffices hs : ∀ b1 b2, BQuery.shallowLW ok b1 b2 cs = true from hs _ _
    intro b1 b2
    induction cs with
    | nil => rw [BQuery.shallowLW]
    | cons c cs ihc =>
      obtain ⟨o, q⟩ := c
      have h1 := hall (o, q) (by simp)
      have h2 := ih (o, q) (by simp) h1
      have h3 := ihc (fun c hc => ih c (by simp [hc])) (fun c hc => hall c (by simp [hc]))
      simp only at h1 h2
      cases o <;> rw [BQuery.shallowLW] <;> simp [h1, h2, h3]

theorem shallowL_mem {two one : Bool} {cs : List (Occur × BQuery L)} (h : BQuery.shallowLW ok two one cs = true) :
    (∀ q, (Occur.must, q) ∈ cs → if two then q.conjFreeW ok = true else q.shallowW ok = true) ∧
    (∀ q, (Occur.should, q) ∈ cs → if one then q.conjFreeW ok = true else q.shallowW ok = true) ∧
    (∀ q, (Occur.mustNot, q) ∈ cs → q.conjFreeW ok = true) ∧ ∀ c ∈ cs, c.2.shallowW ok = true := by
  induction cs with
  | nil => simp
  | cons c cs ih =>
    obtain ⟨o, q⟩ := c
    have hsh : ∀ (b : Bool) (q : BQuery L), (if b then q.conjFreeW ok = true else q.shallowW ok = true) → q.shallowW ok = true := by
      intro b q h
      cases b with
      | true => exact conjFree_shallow q h
      | false => exact h
    have hif : ∀ (b : Bool) (q : BQuery L), (if b then q.conjFreeW ok else q.shallowW ok) = true → (if b then q.conjFreeW ok = true else q.shallowW ok = true) := by
      intro b q h; cases b <;> simpa using h
    cases o <;> rw [BQuery.shallowLW, Bool.and_eq_true] at h <;> obtain ⟨i1, i2, i3, i4⟩ := ih h.2
    · refine ⟨fun q' hq => ?_, fun q' hq => ?_, fun q' hq => ?_, fun c hc => ?_⟩
      · rcases List.mem_cons.mp hq with h1 | h1
        · cases h1
        · exact i1 q' h1
      · rcases List.mem_cons.mp hq with h1 | h1
        · cases h1; exact hif _ _ h.1
        · exact i2 q' h1
      · rcases List.mem_cons.mp hq with h1 | h1
        · cases h1
        · exact i3 q' h1
      · rcases List.mem_cons.mp hc with rfl | h1
        · exact hsh _ _ (hif _ _ h.1)
        · exact i4 c h1
    · refine ⟨fun q' hq => ?_, fun q' hq => ?_, fun q' hq => ?_, fun c hc => ?_⟩
      · rcases List.mem_cons.mp hq with h1 | h1
        · cases h1; exact hif _ _ h.1
        · exact i1 q' h1
      · rcases List.mem_cons.mp hq with h1 | h1
        · cases h1
        · exact i2 q' h1
      · rcases List.mem_cons.mp hq with h1 | h1
        · cases h1
        · exact i3 q' h1
      · rcases List.mem_cons.mp hc with rfl | h1
        · exact hsh _ _ (hif _ _ h.1)
        · exact i4 c h1
    · refine ⟨fun q' hq => ?_, fun q' hq => ?_, fun q' hq => ?_, fun c hc => ?_⟩
      · rcases List.mem_cons.mp hq with h1 | h1
        · cases h1
        · exact i1 q' h1
      · rcases List.mem_cons.mp hq with h1 | h1
        · cases h1
        · exact i2 q' h1
      · rcases List.mem_cons.mp hq with h1 | h1
        · cases h1; exact h.1
        · exact i3 q' h1
      · rcases List.mem_cons.mp hc with rfl | h1
        · exact conjFree_shallow _ h.1
        · exact i4 c h1

/-! ### Making the scorers -/

theorem All2.append {α β : Type} {Q : α → β → Prop} {l m l' m'} (h : All2 Q l m) (h' : All2 Q l' m') : All2 Q (l ++ l') (m ++ m') := by
  induction h with
  | nil => exact h'
  | cons h1 _ ih => exact .cons h1 ih

/-- `bw_scorer` collects the scorers of each kind. -/
theorem bwScorer_spec {A : Arith S} {e : Env σ S L} {lv : L → View S} {τ : Type} {R : τ → View S → Int → Bool → Prop}
    (f : BQuery L → Option τ) : ∀ (cs : List (Occur × BQuery L)) (b : Bsc τ S) (rv ov pv : List (View S)),
      (∀ c ∈ cs, match f c.2 with
        | some s => nullQ e c.2 = false ∧ R s (view A e lv c.2) (-1) false
        | none => nullQ e c.2 = true) →
      FreshL R b.required rv → FreshL R b.optional ov → FreshL R b.prohibited pv →
      b.css = none → b.maxCoord = b.required.length + b.optional.length →
      (nullMust e cs = true ∧ bwScorer (cs.map fun c => (c.1, f c.2)) b = none) ∨
      (nullMust e cs = false ∧ ∃ b', bwScorer (cs.map fun c => (c.1, f c.2)) b = some b' ∧
        FreshL R b'.required (rv ++ viewsOf A e lv .must cs) ∧ FreshL R b'.optional (ov ++ viewsOf A e lv .should cs) ∧
        FreshL R b'.prohibited (pv ++ viewsOf A e lv .mustNot cs) ∧ b'.css = none ∧
        b'.maxCoord = b'.required.length + b'.optional.length) := by
  intro cs
  induction cs with
  | nil =>
    intro b rv ov pv _ h1 h2 h3 h4 h5
    refine .inr ⟨by rw [nullMust], b, rfl, ?_⟩
    simp only [viewsOf, List.append_nil]
    exact ⟨h1, h2, h3, h4, h5⟩
  | cons c cs ih =>
    intro b rv ov pv hc h1 h2 h3 h4 h5
    obtain ⟨o, q⟩ := c
    have hq := hc (o, q) (by simp)
    have hcs : ∀ c ∈ cs, match f c.2 with
        | some s => nullQ e c.2 = false ∧ R s (view A e lv c.2) (-1) false
        | none => nullQ e c.2 = true := fun c hm => hc c (by simp [hm])
    simp only [List.map_cons]
    simp only at hq
    cases hf : f q with
    | none =>
      rw [hf] at hq
      simp only at hq
      have hskip : ∀ k, viewsOf A e lv k ((o, q) :: cs) = viewsOf A e lv k cs := by
        intro k; rw [viewsOf, if_neg (by simp [hq])]
      rw [hskip, hskip, hskip, nullMust, hq, Bool.and_true]
      cases o with
      | must => exact .inl ⟨by simp, by simp [bwScorer]⟩
      | should =>
        simp only [bwScorer]
        simpa using ih b rv ov pv hcs h1 h2 h3 h4 h5
      | mustNot =>
        simp only [bwScorer]
        simpa using ih b rv ov pv hcs h1 h2 h3 h4 h5
    | some s =>
      rw [hf] at hq
      simp only at hq
      have hv : ∀ k, viewsOf A e lv k ((o, q) :: cs) = if o = k then view A e lv q :: viewsOf A e lv k cs else viewsOf A e lv k cs := by
        intro k; rw [viewsOf]; simp [hq.1]
      have hone : FreshL R [s] [view A e lv q] := .cons hq.2 .nil
      rw [nullMust, hq.1, Bool.and_false, Bool.false_or, hv, hv, hv]
      cases o with
      | must =>
        have hstep := ih (bscAdd b s .must) (rv ++ [view A e lv q]) ov pv hcs (All2.append h1 hone) h2 h3 h4 (by simp [bscAdd, h5]; omega)
        simp only [bwScorer]
        simpa using hstep
      | should =>
        have hstep := ih (bscAdd b s .should) rv (ov ++ [view A e lv q]) pv hcs h1 (All2.append h2 hone) h3 h4 (by simp [bscAdd, h5]; omega)
        simp only [bwScorer]
        simpa using hstep
      | mustNot =>
        have hstep := ih (bscAdd b s .mustNot) rv ov (pv ++ [view A e lv q]) hcs h1 h2 (All2.append h3 hone) h4 (by simp [bscAdd, h5])
        simp only [bwScorer]
        simpa using hstep

theorem depthL_mem {cs : List (Occur × BQuery L)} {n} (h : depthL cs ≤ n) : ∀ c ∈ cs, depth c.2 ≤ n := by
  induction cs with
  | nil => simp
  | cons c cs ih =>
    obtain ⟨o, q⟩ := c
    rw [depthL] at h
    intro c hc
    rcases List.mem_cons.mp hc with rfl | h1
    · show depth q ≤ n; omega
    · exact ih (by omega) c h1

theorem atLvl_R {A : Arith S} {o : Ops σ S} {R : σ → View S → Int → Bool → Prop} {s : Leaf σ S} {v lo b} (h : leafR R s v lo b) :
    ∀ n, lvlR P A (leafOps o) (leafR R) n (atLvl n s) v lo b
  | 0 => h
  | _ + 1 => h

/-- The scorer made for a query enumerates its view. -/
theorem mkScorer_spec {A : Arith S} (hA : P → Lawful A) {o : Ops σ S} {R} (g : Good P o R) {e : Env σ S L} {lv : L → View S}
    (hle : LeafOKW ok R e lv) : ∀ (n : Nat) (q : BQuery L), depth q ≤ n → q.shallowW ok = true →
      match mkScorer e n q with
      | some s => nullQ e q = false ∧ lvlR P A (leafOps o) (leafR R) n s (view A e lv q) (-1) false
      | none => nullQ e q = true := by
  intro n
  induction n with
  | zero =>
    intro q hd hs
    cases q with
    | leaf l =>
      rw [mkScorer, nullQ, view]
      have := hle l
      cases hm : e.mkLeaf l with
      | none => simp
      | some s => rw [hm] at this; exact ⟨by simp, this.1⟩
    | all => rw [mkScorer, nullQ, view]; exact ⟨rfl, matchR_new⟩
    | bool cs => rw [depth] at hd; omega
  | succ n ih =>
    intro q hd hs
    cases q with
    | leaf l =>
      rw [mkScorer, nullQ, view]
      have := hle l
      cases hm : e.mkLeaf l with
      | none => simp
      | some s => rw [hm] at this; exact ⟨by simp, this.1⟩
    | all => rw [mkScorer, nullQ, view]; exact ⟨rfl, matchR_new⟩
    | bool cs =>
      rw [depth] at hd
      rw [BQuery.shallowW] at hs
      obtain ⟨s1, s2, s3, s4⟩ := shallowL_mem hs
      have hdep := depthL_mem (n := n) (cs := cs) (by omega)
      rw [mkScorer, nullQ, view]
      have hspec := bwScorer_spec (A := A) (e := e) (lv := lv) (R := lvlR P A (leafOps o) (leafR R) n) (mkScorer e n) cs Bsc.new [] [] []
        (fun c hc => by
          have := ih c.2 (hdep c hc) (s4 c hc)
          cases hm : mkScorer e n c.2 <;> rw [hm] at this <;> exact this) .nil .nil .nil rfl rfl
      rcases hspec with ⟨h1, h2⟩ | ⟨h1, b', h2, h3, h4, h5, h6, h7⟩
      · rw [h2]; exact h1
      · rw [h2]
        refine ⟨h1, ?_⟩
        simp only [List.nil_append] at h3 h4 h5
        have gl := good_lvl (P := P) hA (good_leaf g) n
        have hlen := viewsOf_length_le (A := A) (e := e) (lv := lv) (k := .must) cs
        refine bscR_new hA gl h3 h4 h5 ⟨fun u hu => ?_, fun hl u hu => ?_, fun hne u hu => ?_⟩ h6 h7
        · obtain ⟨q, k1, k2, rfl⟩ := viewsOf_mem hu
          exact view_skips hle q (s3 q k1) k2
        · obtain ⟨q, k1, k2, rfl⟩ := viewsOf_mem hu
          have := s1 q k1
          rw [if_pos (by simp; omega)] at this
          exact view_skips hle q this k2
        · obtain ⟨q, k1, k2, rfl⟩ := viewsOf_mem hu
          have := s2 q k1
          have hpos : 0 < (viewsOf A e lv .must cs).length := List.length_pos_iff.mpr hne
          rw [if_pos (by simp only [decide_eq_true_eq]; omega)] at this
          exact view_skips hle q this k2

/-! ### The view is what the query means -/

mutual
/-- No non-empty boolean query with only MUST_NOT clauses inside. -/
def proper : BQuery L → Bool
  | .leaf _ => true
  | .all => true
  | .bool cs => (cs.isEmpty || !cs.all (·.1 = .mustNot)) && properL cs
def properL : List (Occur × BQuery L) → Bool
  | [] => true
  | (_, q) :: cs => proper q && properL cs
end

theorem properL_mem {cs : List (Occur × BQuery L)} (h : properL cs = true) : ∀ c ∈ cs, proper c.2 = true := by
  induction cs with
  | nil => simp
  | cons c cs ih =>
    obtain ⟨o, q⟩ := c
    rw [properL, Bool.and_eq_true] at h
    intro c hc
    rcases List.mem_cons.mp hc with rfl | h1
    · exact h.1
    · exact ih h.2 c h1

/-- Documents of the reader that are not deleted. -/
def Env.live (e : Env σ S L) (d : Int) : Bool := decide (0 ≤ d) && decide (d < e.maxDoc) && !e.deleted d

theorem null_matches {R} {e : Env σ S L} {lv : L → View S} (hle : LeafOKW ok R e lv) (d : Int) :
    ∀ q : BQuery L, nullQ e q = true → q.matches' (fun l => (lv l).docs) e.live d = false := by
  intro q
  induction q using bq_ind with
  | hl l =>
    intro h
    rw [nullQ] at h
    have := hle l
    rw [BQuery.matches']
    cases hm : e.mkLeaf l with
    | none => rw [hm] at this; exact this d
    | some s => rw [hm] at h; simp at h
  | ha => intro h; rw [nullQ] at h; cases h
  | hb cs ih =>
    intro h
    rw [nullQ, nullMust_iff] at h
    obtain ⟨q, h1, h2⟩ := h
    have := ih _ h1 h2
    cases hm : BQuery.matches' (fun l => (lv l).docs) e.live d (.bool cs) with
    | false => rfl
    | true =>
      have := ((BQuery.matches_bool _ _ _ _).mp hm).1 q h1
      simp_all

theorem view_docs {R} {A : Arith S} {e : Env σ S L} {lv : L → View S} (hle : LeafOKW ok R e lv) (d : Int) :
    ∀ q : BQuery L, proper q = true → nullQ e q = false →
      (view A e lv q).docs d = q.matches' (fun l => (lv l).docs) e.live d := by
  intro q
  induction q using bq_ind with
  | hl l => intro _ _; rw [view, BQuery.matches']
  | ha => intro _ _; rw [view, BQuery.matches']; rfl
  | hb cs ih =>
    intro hp hn
    rw [proper, Bool.and_eq_true] at hp
    have hpm := properL_mem hp.2
    rw [nullQ] at hn
    have hmust : ∀ q, (Occur.must, q) ∈ cs → nullQ e q = false := by
      intro q hq
      cases hm : nullQ e q with
      | false => rfl
      | true => have := nullMust_iff.mpr ⟨q, hq, hm⟩; rw [hn] at this; cases this
    rw [view, Bool.eq_iff_iff, boolView_docs, BQuery.matches_bool]
    unfold BoolDocs
    constructor
    · rintro ⟨h1, h2, h3⟩
      refine ⟨fun q hq => ?_, fun q hq => ?_, ?_⟩
      · rw [← ih _ hq (hpm _ hq) (hmust q hq)]
        exact h1 _ (mem_viewsOf hq (hmust q hq))
      · cases hm : nullQ e q with
        | true => exact null_matches hle d q hm
        | false =>
          rw [← ih _ hq (hpm _ hq) hm]
          exact h3 _ (mem_viewsOf hq hm)
      · by_cases hex : ∃ q, (Occur.must, q) ∈ cs
        · exact .inl hex
        · right; left
          have hnil : viewsOf A e lv .must cs = [] := by
            apply List.eq_nil_iff_forall_not_mem.mpr
            intro u hu
            obtain ⟨q, k1, _⟩ := viewsOf_mem hu
            exact hex ⟨q, k1⟩
          obtain ⟨u, hu, hud⟩ := h2 hnil
          obtain ⟨q, k1, k2, rfl⟩ := viewsOf_mem hu
          exact ⟨q, k1, by rw [← ih _ k1 (hpm _ k1) k2]; exact hud⟩
    · rintro ⟨h1, h2, h3⟩
      refine ⟨fun u hu => ?_, fun hnil => ?_, fun u hu => ?_⟩
      · obtain ⟨q, k1, k2, rfl⟩ := viewsOf_mem hu
        rw [ih _ k1 (hpm _ k1) k2]; exact h1 q k1
      · rcases h3 with ⟨q, hq⟩ | ⟨q, hq, hm⟩ | ⟨k1, k2, _⟩
        · have := mem_viewsOf (A := A) (lv := lv) hq (hmust q hq)
          rw [hnil] at this; simp at this
        · have hnq : nullQ e q = false := by
            cases hx : nullQ e q with
            | false => rfl
            | true => rw [null_matches hle d q hx] at hm; cases hm
          exact ⟨_, mem_viewsOf hq hnq, by rw [ih _ hq (hpm _ hq) hnq]; exact hm⟩
        · have h4 := hp.1
          simp only [Bool.or_eq_true, List.isEmpty_iff, Bool.not_eq_true', k1, false_or] at h4
          have : cs.all (fun c => decide (c.1 = .mustNot)) = true := by simpa using k2
          rw [this] at h4; cases h4
      · obtain ⟨q, k1, k2, rfl⟩ := viewsOf_mem hu
        rw [ih _ k1 (hpm _ k1) k2]; exact h2 q k1

/-! ### Rewriting -/

theorem rewriteL_eq (cs : List (Occur × BQuery L)) : rewriteL cs = cs.map fun c => (c.1, rewrite c.2) := by
  induction cs with
  | nil => rw [rewriteL]; rfl
  | cons c cs ih => obtain ⟨o, q⟩ := c; rw [rewriteL, ih]; rfl

/-- The three ways a boolean query is rewritten. -/
theorem rewrite_cases (cs : List (Occur × BQuery L)) :
    (∃ o q, o ≠ Occur.mustNot ∧ cs = [(o, q)] ∧ rewrite (.bool cs) = rewrite q) ∨
    (cs ≠ [] ∧ (∀ c ∈ cs, c.1 = Occur.mustNot) ∧ rewrite (.bool cs) = .bool (cs.map (fun c => (c.1, rewrite c.2)) ++ [(.must, .all)])) ∨
    ((cs = [] ∨ ∃ c ∈ cs, c.1 ≠ Occur.mustNot) ∧ cs.length ≠ 1 ∧ rewrite (.bool cs) = .bool (cs.map fun c => (c.1, rewrite c.2))) := by
  by_cases h1 : ∃ o q, o ≠ Occur.mustNot ∧ cs = [(o, q)]
  · obtain ⟨o, q, ho, rfl⟩ := h1
    refine .inl ⟨o, q, ho, rfl, ?_⟩
    cases o with
    | must => rw [rewrite]
    | should => rw [rewrite]
    | mustNot => exact absurd rfl ho
  · have hr : rewrite (.bool cs) = if !cs.isEmpty && cs.all (·.1 = .mustNot) then .bool (rewriteL cs ++ [(.must, .all)])
        else .bool (rewriteL cs) := by
      rw [rewrite]
      · intro q hq; exact h1 ⟨.must, q, by simp, hq⟩
      · intro q hq; exact h1 ⟨.should, q, by simp, hq⟩
    rw [hr, rewriteL_eq]
    by_cases h2 : cs ≠ [] ∧ ∀ c ∈ cs, c.1 = Occur.mustNot
    · refine .inr (.inl ⟨h2.1, h2.2, ?_⟩)
      rw [if_pos (by simpa using h2)]
    · refine .inr (.inr ⟨?_, ?_, ?_⟩)
      · by_cases h3 : cs = []
        · exact .inl h3
        · right
          apply Classical.byContradiction
          intro h4
          exact h2 ⟨h3, fun c hc => Classical.byContradiction fun h5 => h4 ⟨c, hc, h5⟩⟩
      · intro hl
        obtain ⟨c, rfl⟩ := List.length_eq_one_iff.mp hl
        apply h2
        refine ⟨by simp, fun c' hc' => ?_⟩
        simp only [List.mem_singleton] at hc'
        subst hc'
        exact Classical.byContradiction fun h5 => h1 ⟨c'.1, c'.2, h5, rfl⟩
      · rw [if_neg (by simpa using h2)]

theorem matches_map (D : L → Int → Bool) (live : Int → Bool) (d : Int) (cs : List (Occur × BQuery L)) (f : BQuery L → BQuery L)
    (h : ∀ c ∈ cs, (f c.2).matches' D live d = c.2.matches' D live d) (k : Occur) :
    BQuery.allMust D live d (cs.map fun c => (c.1, f c.2)) = BQuery.allMust D live d cs ∧
    BQuery.anyOf D live d k (cs.map fun c => (c.1, f c.2)) = BQuery.anyOf D live d k cs := by
  induction cs with
  | nil => exact ⟨rfl, rfl⟩
  | cons c cs ih =>
    obtain ⟨o, q⟩ := c
    obtain ⟨i1, i2⟩ := ih (fun c hc => h c (by simp [hc]))
    have := h (o, q) (by simp)
    simp only at this
    simp only [List.map_cons]
    rw [BQuery.allMust, BQuery.allMust, BQuery.anyOf, BQuery.anyOf, this, i1, i2]
    exact ⟨rfl, rfl⟩

/-- Rewriting does not change what a query matches. -/
theorem rewrite_matches (D : L → Int → Bool) (live : Int → Bool) (d : Int) :
    ∀ q : BQuery L, (rewrite q).matches' D live d = q.matches' D live d := by
  intro q
  induction q using bq_ind with
  | hl l => rw [rewrite]
  | ha => rw [rewrite]
  | hb cs ih =>
    rcases rewrite_cases cs with ⟨o, q, ho, rfl, h⟩ | ⟨h1, h2, h⟩ | ⟨_, _, h⟩
    · rw [h, ih (o, q) (by simp), Bool.eq_iff_iff, BQuery.matches_bool]
      cases o with
      | mustNot => exact absurd rfl ho
      | must => simp
      | should => simp
    · rw [h, Bool.eq_iff_iff, BQuery.matches_bool, BQuery.matches_bool]
      have hno : ∀ q, ¬ (Occur.must, q) ∈ cs := fun q hq => by have := h2 _ hq; cases this
      have hno2 : ∀ q, ¬ (Occur.should, q) ∈ cs := fun q hq => by have := h2 _ hq; cases this
      constructor
      · rintro ⟨a, b, _⟩
        refine ⟨fun q hq => absurd hq (hno q), fun q hq => ?_, .inr (.inr ⟨h1, h2, ?_⟩)⟩
        · rw [← ih _ hq]
          exact b _ (List.mem_append_left _ (List.mem_map.mpr ⟨_, hq, rfl⟩))
        · have := a .all (by simp)
          rwa [BQuery.matches'] at this
      · rintro ⟨_, b, c⟩
        have hl : live d = true := by
          rcases c with ⟨q, hq⟩ | ⟨q, hq, _⟩ | h
          · exact absurd hq (hno q)
          · exact absurd hq (hno2 q)
          · exact h.2.2
        refine ⟨fun q hq => ?_, fun q hq => ?_, .inl ⟨.all, by simp⟩⟩
        · rcases List.mem_append.mp hq with h3 | h3
          · obtain ⟨c, hc, he⟩ := List.mem_map.mp h3
            have := h2 c hc
            simp only [Prod.mk.injEq] at he
            rw [he.1] at this; cases this
          · simp only [List.mem_singleton, Prod.mk.injEq, true_and] at h3
            subst h3; rw [BQuery.matches']; exact hl
        · rcases List.mem_append.mp hq with h3 | h3
          · obtain ⟨c, hc, he⟩ := List.mem_map.mp h3
            obtain ⟨o, q'⟩ := c
            simp only [Prod.mk.injEq] at he
            rw [← he.2, ih _ hc]
            exact b q' (by rw [← he.1]; exact hc)
          · simp at h3
    · rw [h, BQuery.matches', BQuery.matches']
      have hm := matches_map D live d cs rewrite ih
      rw [(hm .must).1, (hm .mustNot).2, (hm .should).2]
      simp [Function.comp_def]

theorem properL_of {cs : List (Occur × BQuery L)} (h : ∀ c ∈ cs, proper c.2 = true) : properL cs = true := by
  induction cs with
  | nil => rw [properL]
  | cons c cs ih =>
    obtain ⟨o, q⟩ := c
    rw [properL, Bool.and_eq_true]
    exact ⟨h (o, q) (by simp), ih (fun c hc => h c (by simp [hc]))⟩

theorem rewrite_proper : ∀ q : BQuery L, proper (rewrite q) = true := by
  intro q
  induction q using bq_ind with
  | hl l => rw [rewrite, proper]
  | ha => rw [rewrite, proper]
  | hb cs ih =>
    have hmap : ∀ c ∈ cs.map (fun c => (c.1, rewrite c.2)), proper c.2 = true := by
      intro c hc
      obtain ⟨c', h1, rfl⟩ := List.mem_map.mp hc
      exact ih c' h1
    rcases rewrite_cases cs with ⟨o, q, ho, rfl, h⟩ | ⟨h1, h2, h⟩ | ⟨h1, h2, h⟩
    · rw [h]; exact ih (o, q) (by simp)
    · rw [h, proper, Bool.and_eq_true]
      refine ⟨by simp, properL_of fun c hc => ?_⟩
      rcases List.mem_append.mp hc with h3 | h3
      · exact hmap c h3
      · simp only [List.mem_singleton] at h3; subst h3; rw [proper]
    · rw [h, proper, Bool.and_eq_true]
      refine ⟨?_, properL_of hmap⟩
      rcases h1 with rfl | ⟨c, hc, hne⟩
      · rfl
      · simp only [Bool.or_eq_true, Bool.not_eq_true', List.all_eq_false]
        right
        exact ⟨_, List.mem_map.mpr ⟨c, hc, rfl⟩, by simpa using hne⟩

/-- One rewrite pass is enough: the loop of `isea_rewrite` (c/src/search.c:1217-1230) stops. -/
theorem rewrite_idem : ∀ q : BQuery L, rewrite (rewrite q) = rewrite q := by
  intro q
  induction q using bq_ind with
  | hl l => rw [rewrite, rewrite]
  | ha => rw [rewrite, rewrite]
  | hb cs ih =>
    have hmm : (cs.map (fun c => (c.1, rewrite c.2))).map (fun c => (c.1, rewrite c.2)) = cs.map (fun c => (c.1, rewrite c.2)) := by
      rw [List.map_map]
      apply List.map_congr_left
      intro c hc
      simp only [Function.comp, ih c hc]
    rcases rewrite_cases cs with ⟨o, q, ho, rfl, h⟩ | ⟨h1, h2, h⟩ | ⟨h1, h2, h⟩
    · rw [h]; exact ih (o, q) (by simp)
    · rw [h]
      rcases rewrite_cases (cs.map (fun c => (c.1, rewrite c.2)) ++ [(.must, .all)]) with ⟨o, q, ho, k, _⟩ | ⟨_, k2, _⟩ | ⟨_, _, k3⟩
      · have := congrArg List.length k
        simp at this
        exact absurd this h1
      · have := k2 (.must, .all) (by simp); cases this
      · rw [k3, List.map_append, hmm]; simp [rewrite]
    · rw [h]
      rcases rewrite_cases (cs.map (fun c => (c.1, rewrite c.2))) with ⟨o, q, ho, k, _⟩ | ⟨k1, k2, _⟩ | ⟨_, _, k3⟩
      · have := congrArg List.length k
        simp at this
        exact absurd this h2
      · rcases h1 with rfl | ⟨c, hc, hne⟩
        · simp at k1
        · exact absurd (k2 (c.1, rewrite c.2) (List.mem_map.mpr ⟨c, hc, rfl⟩)) hne
      · rw [k3, hmm]

theorem conjFreeL_of {cs : List (Occur × BQuery L)} (h : ∀ c ∈ cs, c.2.conjFreeW ok = true) : BQuery.conjFreeLW ok cs = true := by
  induction cs with
  | nil => rw [BQuery.conjFreeLW]
  | cons c cs ih =>
    obtain ⟨o, q⟩ := c
    rw [BQuery.conjFreeLW, Bool.and_eq_true]
    exact ⟨h (o, q) (by simp), ih (fun c hc => h c (by simp [hc]))⟩

theorem filter_map_len (cs : List (Occur × BQuery L)) (k : Occur) :
    ((cs.map (fun c => (c.1, rewrite c.2))).filter (·.1 = k)).length = (cs.filter (·.1 = k)).length := by
  rw [List.filter_map, List.length_map]; rfl

theorem rewrite_conjFree : ∀ q : BQuery L, q.conjFreeW ok = true → (rewrite q).conjFreeW ok = true := by
  intro q
  induction q using bq_ind with
  | hl l => intro h; rw [rewrite]; exact h
  | ha => intro _; rw [rewrite, BQuery.conjFreeW]
  | hb cs ih =>
    intro hc
    rw [BQuery.conjFreeW, Bool.and_eq_true, decide_eq_true_eq] at hc
    have hm := conjFreeL_mem hc.2
    have hmap : ∀ c ∈ cs.map (fun c => (c.1, rewrite c.2)), c.2.conjFreeW ok = true := by
      intro c hcm
      obtain ⟨c', h1, rfl⟩ := List.mem_map.mp hcm
      exact ih c' h1 (hm c' h1)
    rcases rewrite_cases cs with ⟨o, q, ho, rfl, h⟩ | ⟨h1, h2, h⟩ | ⟨h1, h2, h⟩
    · rw [h]; exact ih (o, q) (by simp) (hm _ (by simp))
    · rw [h, BQuery.conjFreeW, Bool.and_eq_true, decide_eq_true_eq]
      refine ⟨?_, conjFreeL_of fun c hcm => ?_⟩
      · rw [List.filter_append, List.length_append, filter_map_len]
        have : cs.filter (·.1 = Occur.must) = [] := by
          rw [List.filter_eq_nil_iff]
          intro c hcm; simp [h2 c hcm]
        rw [this]; simp
      · rcases List.mem_append.mp hcm with h3 | h3
        · exact hmap c h3
        · simp only [List.mem_singleton] at h3; subst h3; rw [BQuery.conjFreeW]
    · rw [h, BQuery.conjFreeW, Bool.and_eq_true, decide_eq_true_eq, filter_map_len]
      exact ⟨hc.1, conjFreeL_of hmap⟩

theorem shallowL_of {two one : Bool} {cs : List (Occur × BQuery L)}
    (h1 : ∀ q, (Occur.must, q) ∈ cs → if two then q.conjFreeW ok = true else q.shallowW ok = true)
    (h2 : ∀ q, (Occur.should, q) ∈ cs → if one then q.conjFreeW ok = true else q.shallowW ok = true)
    (h3 : ∀ q, (Occur.mustNot, q) ∈ cs → q.conjFreeW ok = true) : BQuery.shallowLW ok two one cs = true := by
  induction cs with
  | nil => rw [BQuery.shallowLW]
  | cons c cs ih =>
    obtain ⟨o, q⟩ := c
    have i := ih (fun q hq => h1 q (by simp [hq])) (fun q hq => h2 q (by simp [hq])) (fun q hq => h3 q (by simp [hq]))
    cases o <;> rw [BQuery.shallowLW, Bool.and_eq_true] <;> refine ⟨?_, i⟩
    · have := h2 q (by simp)
      cases one <;> simpa using this
    · have := h1 q (by simp)
      cases two <;> simpa using this
    · exact h3 q (by simp)

theorem rewrite_shallow : ∀ q : BQuery L, q.shallowW ok = true → (rewrite q).shallowW ok = true := by
  intro q
  induction q using bq_ind with
  | hl l => intro _; rw [rewrite, BQuery.shallowW]
  | ha => intro _; rw [rewrite, BQuery.shallowW]
  | hb cs ih =>
    intro hc
    rw [BQuery.shallowW] at hc
    obtain ⟨s1, s2, s3, s4⟩ := shallowL_mem hc
    have lift : ∀ (b : Bool) (c : Occur × BQuery L), c ∈ cs → (if b then c.2.conjFreeW ok = true else c.2.shallowW ok = true) →
        (if b then (rewrite c.2).conjFreeW ok = true else (rewrite c.2).shallowW ok = true) := by
      intro b c hcm h
      cases b with
      | true => exact rewrite_conjFree _ h
      | false => exact ih c hcm h
    rcases rewrite_cases cs with ⟨o, q, ho, rfl, h⟩ | ⟨h1, h2, h⟩ | ⟨h1, h2, h⟩
    · rw [h]; exact ih (o, q) (by simp) (s4 _ (by simp))
    · rw [h, BQuery.shallowW]
      refine shallowL_of (fun q hq => ?_) (fun q hq => ?_) (fun q hq => ?_)
      · rcases List.mem_append.mp hq with h3 | h3
        · obtain ⟨c, hcm, he⟩ := List.mem_map.mp h3
          have := h2 c hcm
          simp only [Prod.mk.injEq] at he
          rw [he.1] at this; cases this
        · simp only [List.mem_singleton, Prod.mk.injEq, true_and] at h3
          subst h3
          split
          · rw [BQuery.conjFreeW]
          · rw [BQuery.shallowW]
      · rcases List.mem_append.mp hq with h3 | h3
        · obtain ⟨c, hcm, he⟩ := List.mem_map.mp h3
          have := h2 c hcm
          simp only [Prod.mk.injEq] at he
          rw [he.1] at this; cases this
        · simp at h3
      · rcases List.mem_append.mp hq with h3 | h3
        · obtain ⟨c, hcm, he⟩ := List.mem_map.mp h3
          obtain ⟨o, q'⟩ := c
          simp only [Prod.mk.injEq] at he
          rw [← he.2]
          exact rewrite_conjFree _ (s3 q' (by rw [← he.1]; exact hcm))
        · simp at h3
    · rw [h, BQuery.shallowW, filter_map_len]
      refine shallowL_of (fun q hq => ?_) (fun q hq => ?_) (fun q hq => ?_) <;>
      · obtain ⟨c, hcm, he⟩ := List.mem_map.mp hq
        obtain ⟨o, q'⟩ := c
        simp only [Prod.mk.injEq] at he
        obtain ⟨rfl, rfl⟩ := he
        first
          | exact lift _ _ hcm (s1 q' hcm)
          | exact lift _ _ hcm (s2 q' hcm)
          | exact rewrite_conjFree _ (s3 q' hcm)

/-! ### Draining -/

theorem drain_spec {o : Ops σ S} {R} (g : Good P o R) : ∀ (fuel : Nat) {s : σ} {v : View S} {lo b}, R s v lo b → o.left s < fuel →
    ∃ hits, drain o fuel s = .ok hits ∧ (hits.map (·.1)).Pairwise (· < ·) ∧
      (∀ d, d ∈ hits.map (·.1) ↔ (v.docs d = true ∧ lo < d)) ∧ (P → ∀ h ∈ hits, h.2 = v.sc h.1) := by
  intro fuel
  induction fuel with
  | zero => intro s v lo b _ h; omega
  | succ n ih =>
    intro s v lo b h hf
    unfold drain
    obtain ⟨r, r1, r2⟩ := g.next h
    rw [r1, Res.ok_bind]
    rcases r2 with ⟨e1, d, e2, e3, e4⟩ | ⟨e1, e2⟩
    · rw [if_pos e1]
      have hlo := (g.lo h).1
      have hd := e2.2.1
      obtain ⟨x, s', k1, k2, k3, k4⟩ := g.score e3 (by omega)
      rw [k1, Res.ok_bind]
      obtain ⟨hits, i1, i2, i3, i4⟩ := ih k3 (by omega)
      rw [i1, Res.ok_bind, g.doc e3 (by omega)]
      refine ⟨_, rfl, ?_, fun y => ?_, fun hp y hy => ?_⟩
      · rw [List.map_cons, List.pairwise_cons]
        exact ⟨fun y hy => ((i3 y).mp hy).2, i2⟩
      · rw [List.map_cons, List.mem_cons, i3]
        constructor
        · rintro (rfl | ⟨h1, h2⟩)
          · exact ⟨e2.1, hd⟩
          · exact ⟨h1, by omega⟩
        · rintro ⟨h1, h2⟩
          have := e2.2.2 y h1 h2
          by_cases hyd : y = d
          · exact .inl hyd
          · exact .inr ⟨h1, by omega⟩
      · rcases List.mem_cons.mp hy with rfl | h1
        · exact k2 hp
        · exact i4 hp y h1
    · rw [if_neg (by simp [e1])]
      refine ⟨_, rfl, by simp, fun y => ?_, by simp⟩
      constructor
      · intro h; simp at h
      · rintro ⟨h1, h2⟩; have := e2 y h1; omega

/-- Enumerating with `next` only. -/
theorem exists_full {o : Ops σ S} {R} (g : Good P o R) {s : σ} {v : View S} {lo b} (h : R s v lo b) :
    ∃ full : List Int, full.Pairwise (· < ·) ∧ ∀ d, d ∈ full ↔ (v.docs d = true ∧ lo < d) := by
  obtain ⟨hits, _, h2, h3, _⟩ := drain_spec g (o.left s + 1) h (by omega)
  exact ⟨hits.map (·.1), h2, h3⟩

theorem sorted_unique : ∀ {l m : List Int}, l.Pairwise (· < ·) → m.Pairwise (· < ·) → (∀ d, d ∈ l ↔ d ∈ m) → l = m := by
  intro l
  induction l with
  | nil =>
    intro m _ _ h
    cases m with
    | nil => rfl
    | cons a m => exact absurd ((h a).mpr (by simp)) (by simp)
  | cons a l ih =>
    intro m h1 h2 h
    cases m with
    | nil => exact absurd ((h a).mp (by simp)) (by simp)
    | cons b m =>
      have p1 := List.pairwise_cons.mp h1
      have p2 := List.pairwise_cons.mp h2
      have hab : a = b := by
        have ha := (h a).mp (by simp)
        have hb := (h b).mpr (by simp)
        rcases List.mem_cons.mp ha with h3 | h3
        · exact h3
        · rcases List.mem_cons.mp hb with h4 | h4
          · exact h4.symm
          · have := p1.1 b h4; have := p2.1 a h3; omega
      subst hab
      congr 1
      refine ih p1.2 p2.2 fun d => ?_
      have := h d
      simp only [List.mem_cons] at this
      constructor
      · intro hd
        rcases this.mp (.inr hd) with h3 | h3
        · have := p1.1 d hd; omega
        · exact h3
      · intro hd
        rcases this.mpr (.inr hd) with h3 | h3
        · have := p2.1 d hd; omega
        · exact h3

theorem unscoredLoop_spec {o : Ops σ S} {R} (g : Good P o R) (limit : Nat) : ∀ (fuel : Nat) {s : σ} {v : View S} {lo b} (count : Nat) (full : List Int),
    R s v lo b → 0 ≤ lo → o.left s < fuel → count < limit → full.Pairwise (· < ·) → (∀ d, d ∈ full ↔ (v.docs d = true ∧ lo ≤ d)) →
    unscoredLoop o limit fuel s count = .ok (full.take (limit - count)) := by
  intro fuel
  induction fuel with
  | zero => intro s v lo b count full _ _ h; omega
  | succ n ih =>
    intro s v lo b count full h h0 hf hc hs hm
    unfold unscoredLoop
    rw [if_pos hc, g.doc h h0]
    have hlo : v.docs lo = true := (g.lo h).2 h0
    obtain ⟨rest, rfl⟩ : ∃ rest, full = lo :: rest := by
      cases full with
      | nil => exact absurd ((hm lo).mpr ⟨hlo, Int.le_refl _⟩) (by simp)
      | cons a l =>
        have ha := (hm a).mp (by simp)
        rcases List.mem_cons.mp ((hm lo).mpr ⟨hlo, Int.le_refl _⟩) with h1 | h1
        · exact ⟨l, by rw [h1]⟩
        · have := (List.pairwise_cons.mp hs).1 lo h1; omega
    have hs2 := List.pairwise_cons.mp hs
    have hrest : ∀ d, d ∈ rest ↔ (v.docs d = true ∧ lo < d) := by
      intro d
      have := hm d
      simp only [List.mem_cons] at this
      constructor
      · intro hd; exact ⟨(this.mp (.inr hd)).1, hs2.1 d hd⟩
      · rintro ⟨h1, h2⟩
        rcases this.mpr ⟨h1, by omega⟩ with h3 | h3
        · omega
        · exact h3
    by_cases hc2 : count + 1 < limit
    · rw [if_pos hc2]
      obtain ⟨r, r1, r2⟩ := g.next h
      rw [r1, Res.ok_bind]
      rcases r2 with ⟨e1, d, e2, e3, e4⟩ | ⟨e1, e2⟩
      · rw [if_pos e1]
        have hd := e2.2.1
        have := ih (s := r.2) (lo := d) (count + 1) rest e3 (by omega) (by omega) hc2 hs2.2 (fun x => by
          rw [hrest]
          constructor
          · rintro ⟨h1, h2⟩; exact ⟨h1, e2.2.2 x h1 h2⟩
          · rintro ⟨h1, h2⟩; exact ⟨h1, by omega⟩)
        rw [this, Res.ok_bind, show limit - count = (limit - (count + 1)) + 1 by omega, List.take_succ_cons]
      · rw [if_neg (by simp [e1])]
        have : rest = [] := by
          apply List.eq_nil_iff_forall_not_mem.mpr
          intro x hx
          have h1 := (hrest x).mp hx
          have := e2 x h1.1
          omega
        subst this
        rw [show limit - count = (limit - (count + 1)) + 1 by omega, List.take_succ_cons]; simp
    · rw [if_neg hc2, show limit - count = 1 by omega]; simp

/-- The unscored scan returns the first matches at or after the offset. -/
theorem unscored_spec {o : Ops σ S} {R} (g : Good P o R) {s : σ} {v : View S} {b} (h : R s v (-1) b) (hs : v.skips = true)
    {limit : Nat} {offset : Int} (h0 : 0 ≤ offset) (hl : 1 ≤ limit) :
    ∃ full : List Int, full.Pairwise (· < ·) ∧ (∀ d, d ∈ full ↔ (v.docs d = true ∧ offset ≤ d)) ∧
      unscored o s limit offset = .ok (full.take limit) := by
  unfold unscored
  obtain ⟨r, r1, r2⟩ := g.skip h hs (n := offset) (by omega)
  rw [r1, Res.ok_bind]
  rcases r2 with ⟨e1, d, e2, e3, e4⟩ | ⟨e1, e2⟩
  · rw [if_pos e1]
    obtain ⟨tl, t1, t2⟩ := exists_full g e3
    have hd := e2.2.1
    have hmem : ∀ x, x ∈ d :: tl ↔ (v.docs x = true ∧ d ≤ x) := by
      intro x
      rw [List.mem_cons, t2]
      constructor
      · rintro (rfl | ⟨h1, h2⟩)
        · exact ⟨e2.1, Int.le_refl _⟩
        · exact ⟨h1, by omega⟩
      · rintro ⟨h1, h2⟩
        by_cases hx : x = d
        · exact .inl hx
        · exact .inr ⟨h1, by omega⟩
    have hpw : (d :: tl).Pairwise (· < ·) := List.pairwise_cons.mpr ⟨fun x hx => ((t2 x).mp hx).2, t1⟩
    refine ⟨d :: tl, hpw, fun x => ?_, ?_⟩
    · rw [hmem]
      constructor
      · rintro ⟨h1, h2⟩; exact ⟨h1, by omega⟩
      · rintro ⟨h1, h2⟩; exact ⟨h1, e2.2.2 x h1 (by omega)⟩
    · have := unscoredLoop_spec g limit (o.left r.2 + 1) 0 (d :: tl) e3 (by omega) (by omega) (by omega) hpw hmem
      simpa using this
  · rw [if_neg (by simp [e1])]
    refine ⟨[], by simp, fun x => ?_, by simp⟩
    constructor
    · intro h; simp at h
    · rintro ⟨h1, h2⟩; have := e2 x h1; omega

/-! ### Scores -/

/-- The specification's arithmetic. -/
def Arith.spec (A : Arith S) : ScoreArith S := ⟨A.zero, A.add, A.mul, A.coord⟩

theorem sumOf_eq {R} {A : Arith S} {e : Env σ S L} {lv : L → View S} (hle : LeafOKW ok R e lv) (d : Int) (k : Occur) (cs : List (Occur × BQuery L))
    (hp : ∀ c ∈ cs, proper c.2 = true) (hn : ∀ c ∈ cs, nullQ e c.2 = false)
    (hsc : ∀ c ∈ cs, (view A e lv c.2).docs d = true → (view A e lv c.2).sc d = c.2.score A.spec (fun l => (lv l).docs) e.live (fun l => (lv l).sc) e.allScore d) :
    sumSc A (viewsOf A e lv k cs) d = BQuery.sumOf A.spec (fun l => (lv l).docs) e.live (fun l => (lv l).sc) e.allScore d k cs ∧
    cntSc (viewsOf A e lv k cs) d = BQuery.cntOf (fun l => (lv l).docs) e.live d k cs ∧
    (viewsOf A e lv k cs).length = (cs.filter (·.1 = k)).length := by
  induction cs with
  | nil => exact ⟨rfl, rfl, rfl⟩
  | cons c cs ih =>
    obtain ⟨o, q⟩ := c
    obtain ⟨i1, i2, i3⟩ := ih (fun c hc => hp c (by simp [hc])) (fun c hc => hn c (by simp [hc])) (fun c hc => hsc c (by simp [hc]))
    have hnq := hn (o, q) (by simp)
    have hdq := view_docs (A := A) hle d q (hp (o, q) (by simp)) hnq
    have hsq := hsc (o, q) (by simp)
    simp only at hnq hdq hsq
    rw [viewsOf, BQuery.sumOf, BQuery.cntOf]
    by_cases ho : o = k
    · rw [if_pos ⟨ho, hnq⟩, List.filter_cons_of_pos (by simpa using ho), List.length_cons, List.length_cons, i3]
      by_cases hm : q.matches' (fun l => (lv l).docs) e.live d = true
      · rw [if_pos ⟨ho, hm⟩, if_pos ⟨ho, hm⟩]
        have hvd : (view A e lv q).docs d = true := by rw [hdq]; exact hm
        refine ⟨?_, ?_, rfl⟩
        · rw [← i1, ← hsq hvd]
          unfold sumSc
          rw [List.filter_cons_of_pos (p := fun u : View S => u.docs d) hvd]; rfl
        · rw [← i2]
          unfold cntSc
          rw [List.filter_cons_of_pos (p := fun u : View S => u.docs d) hvd]; simp; omega
      · rw [if_neg (fun h => hm h.2), if_neg (fun h => hm h.2)]
        have hvd : ¬ (view A e lv q).docs d = true := by rw [hdq]; exact hm
        refine ⟨?_, ?_, rfl⟩
        · rw [← i1]; unfold sumSc; rw [List.filter_cons_of_neg (p := fun u : View S => u.docs d) hvd]
        · rw [← i2]; unfold cntSc; rw [List.filter_cons_of_neg (p := fun u : View S => u.docs d) hvd]
    · rw [if_neg (fun h => ho h.1), if_neg (fun h => ho h.1), if_neg (fun h => ho h.1), List.filter_cons_of_neg (by simpa using ho)]
      exact ⟨i1, i2, i3⟩

theorem nullQ_false {e : Env σ S L} (hl : ∀ l, (e.mkLeaf l).isSome = true) : ∀ q : BQuery L, nullQ e q = false := by
  intro q
  induction q using bq_ind with
  | hl l =>
    rw [nullQ]
    have := hl l
    cases hm : e.mkLeaf l with
    | none => rw [hm] at this; cases this
    | some s => rfl
  | ha => rw [nullQ]
  | hb cs ih =>
    rw [nullQ]
    cases hm : nullMust e cs with
    | false => rfl
    | true =>
      obtain ⟨q, h1, h2⟩ := nullMust_iff.mp hm
      rw [ih _ h1] at h2; cases h2

theorem view_score {R} {A : Arith S} (hA : Lawful A) {e : Env σ S L} {lv : L → View S} (hle : LeafOKW ok R e lv) (hl : ∀ l, (e.mkLeaf l).isSome = true) (d : Int) :
    ∀ q : BQuery L, proper q = true → (view A e lv q).docs d = true →
      (view A e lv q).sc d = q.score A.spec (fun l => (lv l).docs) e.live (fun l => (lv l).sc) e.allScore d := by
  intro q
  induction q using bq_ind with
  | hl l => intro _ _; rw [view, BQuery.score]
  | ha => intro _ _; rw [view, BQuery.score]; rfl
  | hb cs ih =>
    intro hp hd
    rw [proper, Bool.and_eq_true] at hp
    have hpm := properL_mem hp.2
    have key := fun k => sumOf_eq (A := A) hle d k cs hpm (fun c _ => nullQ_false hl c.2) (fun c hc h => ih c hc (hpm c hc) h)
    rw [view, BQuery.score, if_neg (by
      have := hp.1
      cases h1 : cs.isEmpty <;> simp_all)]
    show A.mul _ _ = _
    rw [sumSc_append hA, cntSc_append, (key .must).1, (key .should).1, (key .must).2.1, (key .should).2.1, (key .must).2.2, (key .should).2.2]
    rfl

theorem sumOf_map {A : ScoreArith S} (D : L → Int → Bool) (live : Int → Bool) (sc : L → Int → S) (al : S) (d : Int) (k : Occur)
    (cs : List (Occur × BQuery L)) (h : ∀ c ∈ cs, (rewrite c.2).matches' D live d = true → (rewrite c.2).score A D live sc al d = c.2.score A D live sc al d) :
    BQuery.sumOf A D live sc al d k (cs.map fun c => (c.1, rewrite c.2)) = BQuery.sumOf A D live sc al d k cs ∧
    BQuery.cntOf D live d k (cs.map fun c => (c.1, rewrite c.2)) = BQuery.cntOf D live d k cs := by
  induction cs with
  | nil => exact ⟨rfl, rfl⟩
  | cons c cs ih =>
    obtain ⟨o, q⟩ := c
    obtain ⟨i1, i2⟩ := ih (fun c hc => h c (by simp [hc]))
    have hq := h (o, q) (by simp)
    simp only [rewrite_matches] at hq
    simp only [List.map_cons, BQuery.sumOf, BQuery.cntOf, rewrite_matches, i1, i2]
    refine ⟨?_, trivial⟩
    split
    · rename_i h1; rw [hq h1.2]
    · rfl

/-- Rewriting keeps the score of matching documents. -/
theorem rewrite_score {A : Arith S} (hA : Lawful A) (hc : ∀ a, A.mul a (A.coord 1 1) = a) (D : L → Int → Bool) (live : Int → Bool) (sc : L → Int → S) (al : S) (d : Int) :
    ∀ q : BQuery L, (rewrite q).matches' D live d = true → (rewrite q).score A.spec D live sc al d = q.score A.spec D live sc al d := by
  have hz : ∀ a, A.add a A.zero = a := fun a => by rw [hA.comm, hA.zero]
  intro q
  induction q using bq_ind with
  | hl l => intro _; rw [rewrite]
  | ha => intro _; rw [rewrite]
  | hb cs ih =>
    intro hm
    have hmap := fun k => sumOf_map (A := A.spec) D live sc al d k cs ih
    rcases rewrite_cases cs with ⟨o, q, ho, rfl, h⟩ | ⟨h1, h2, h⟩ | ⟨h1, h2, h⟩
    · rw [h] at hm ⊢
      rw [ih (o, q) (by simp) hm]
      rw [rewrite_matches] at hm
      simp only at hm ⊢
      cases o with
      | mustNot => exact absurd rfl ho
      | must =>
        simp only [BQuery.score, BQuery.sumOf, BQuery.cntOf, hm, Arith.spec]
        simp [hz, hc]
      | should =>
        simp only [BQuery.score, BQuery.sumOf, BQuery.cntOf, hm, Arith.spec]
        simp [hz, hc, hA.zero]
    · rw [h, BQuery.score, BQuery.score, if_neg (by simp), if_pos (by simp only [Bool.and_eq_true, Bool.not_eq_true', List.isEmpty_eq_false_iff, List.all_eq_true, decide_eq_true_eq]; exact ⟨h1, h2⟩)]
      have hall : ∀ k, k ≠ Occur.mustNot → ∀ cs : List (Occur × BQuery L), (∀ c ∈ cs, c.1 = Occur.mustNot) → ∀ tl,
          BQuery.sumOf A.spec D live sc al d k (cs ++ tl) = BQuery.sumOf A.spec D live sc al d k tl ∧
          BQuery.cntOf D live d k (cs ++ tl) = BQuery.cntOf D live d k tl ∧
          ((cs ++ tl).filter (·.1 = k)) = tl.filter (·.1 = k) := by
        intro k hk cs
        induction cs with
        | nil => intro _ tl; exact ⟨rfl, rfl, rfl⟩
        | cons c cs ihc =>
          intro hcs tl
          obtain ⟨o, q⟩ := c
          have ho : o = .mustNot := hcs (o, q) (by simp)
          have hne : ¬ o = k := by rw [ho]; exact fun h => hk h.symm
          obtain ⟨j1, j2, j3⟩ := ihc (fun c hc => hcs c (by simp [hc])) tl
          refine ⟨?_, ?_, ?_⟩
          · rw [List.cons_append, BQuery.sumOf, if_neg (fun h => hne h.1), j1]
          · rw [List.cons_append, BQuery.cntOf, if_neg (fun h => hne h.1), j2]
          · rw [List.cons_append, List.filter_cons_of_neg (by simpa using hne), j3]
      have hmn : ∀ c ∈ cs.map (fun c => (c.1, rewrite c.2)), c.1 = Occur.mustNot := by
        intro c hcm
        obtain ⟨c', k1, rfl⟩ := List.mem_map.mp hcm
        exact h2 c' k1
      have a1 := hall .must (by simp) _ hmn [(.must, .all)]
      have a2 := hall .should (by simp) _ hmn [(.must, .all)]
      have hlive : live d = true := by
        rw [h, BQuery.matches_bool] at hm
        have := hm.1 .all (by simp)
        rwa [BQuery.matches'] at this
      rw [a1.1, a1.2.1, a1.2.2, a2.1, a2.2.1, a2.2.2]
      simp [BQuery.sumOf, BQuery.cntOf, BQuery.matches', hlive, Arith.spec, BQuery.score, hz, hc]
    · rw [h, BQuery.score, BQuery.score, (hmap .must).1, (hmap .must).2, (hmap .should).1, (hmap .should).2, filter_map_len, filter_map_len]
      rw [List.isEmpty_map, List.all_map]; rfl

/-- Matching documents have numbers. -/
theorem matches_nonneg {D : L → Int → Bool} {live : Int → Bool} {d : Int} (hD : ∀ l, D l d = true → 0 ≤ d) (hl : live d = true → 0 ≤ d) :
    ∀ q : BQuery L, q.matches' D live d = true → 0 ≤ d := by
  intro q
  induction q using bq_ind with
  | hl l => intro h; rw [BQuery.matches'] at h; exact hD l h
  | ha => intro h; rw [BQuery.matches'] at h; exact hl h
  | hb cs ih =>
    intro h
    rw [BQuery.matches_bool] at h
    rcases h with ⟨h1, _, ⟨q, hq⟩ | ⟨q, hq, hm⟩ | ⟨_, _, h⟩⟩
    · exact ih _ hq (h1 q hq)
    · exact ih _ hq hm
    · exact hl h

/-! ### Searching -/

theorem searchEach_spec {A : Arith S} (hA : P → Lawful A) {o : Ops σ S} {R} (g : Good P o R) {e : Env σ S L} {lv : L → View S}
    (hle : LeafOKW ok R e lv) (q : BQuery L) (hq : q.shallowW ok = true) :
    ∃ hits, searchEach A o e q = .ok hits ∧ (hits.map (·.1)).Pairwise (· < ·) ∧
      (∀ d, d ∈ hits.map (·.1) ↔ (q.matches' (fun l => (lv l).docs) e.live d = true ∧ 0 ≤ d)) ∧
      (P → (∀ l, (e.mkLeaf l).isSome = true) → ∀ h ∈ hits, h.2 = (rewrite q).score A.spec (fun l => (lv l).docs) e.live (fun l => (lv l).sc) e.allScore h.1) := by
  unfold searchEach
  simp only []
  have hs := mkScorer_spec (P := P) hA g hle (depth (rewrite q)) (rewrite q) (Nat.le_refl _) (rewrite_shallow q hq)
  cases hm : mkScorer e (depth (rewrite q)) (rewrite q) with
  | none =>
    rw [hm] at hs
    refine ⟨[], rfl, by simp, fun d => ?_, by simp⟩
    have := null_matches hle d (rewrite q) hs
    rw [rewrite_matches] at this
    simp [this]
  | some s =>
    rw [hm] at hs
    obtain ⟨hits, h1, h2, h3, h4⟩ := drain_spec (good_lvl hA (good_leaf g) (depth (rewrite q))) _ hs.2 (Nat.lt_succ_self _)
    refine ⟨hits, h1, h2, fun d => ?_, fun hp hl h hh => ?_⟩
    · rw [h3, view_docs hle d _ (rewrite_proper q) hs.1, rewrite_matches]
      constructor <;> rintro ⟨a, b⟩ <;> exact ⟨a, by omega⟩
    · rw [h4 hp h hh]
      have := (h3 h.1).mp (List.mem_map.mpr ⟨h, hh, rfl⟩)
      exact view_score (hA hp) hle hl h.1 _ (rewrite_proper q) this.1

theorem searchUnscored_spec {A : Arith S} (hA : P → Lawful A) {o : Ops σ S} {R} (g : Good P o R) {e : Env σ S L} {lv : L → View S}
    (hle : LeafOKW ok R e lv) (q : BQuery L) (hq : q.conjFreeW ok = true) {limit : Nat} {offset : Int} (hl : 1 ≤ limit) (h0 : 0 ≤ offset) :
    ∃ full : List Int, full.Pairwise (· < ·) ∧ (∀ d, d ∈ full ↔ (q.matches' (fun l => (lv l).docs) e.live d = true ∧ offset ≤ d)) ∧
      searchUnscored A o e q limit offset = .ok (full.take limit) := by
  unfold searchUnscored
  simp only []
  have hcf := rewrite_conjFree q hq
  have hs := mkScorer_spec (P := P) hA g hle (depth (rewrite q)) (rewrite q) (Nat.le_refl _) (conjFree_shallow _ hcf)
  cases hm : mkScorer e (depth (rewrite q)) (rewrite q) with
  | none =>
    rw [hm] at hs
    refine ⟨[], by simp, fun d => ?_, by simp⟩
    have := null_matches hle d (rewrite q) hs
    rw [rewrite_matches] at this
    simp [this]
  | some s =>
    rw [hm] at hs
    obtain ⟨full, h1, h2, h3⟩ := unscored_spec (good_lvl hA (good_leaf g) (depth (rewrite q))) hs.2 (view_skips hle _ hcf hs.1) h0 hl
    refine ⟨full, h1, fun d => ?_, h3⟩
    rw [h2, view_docs hle d _ (rewrite_proper q) hs.1, rewrite_matches]

/-! ### Indexes of terms -/

/-- View of a term. -/
def TermIx.lv (A : Arith S) (ix : TermIx S L) (l : L) : View S := termView A (ix.tfw l) (ix.norm l) (ix.postings l)

theorem TermIx.leafOK (A : Arith S) (ix : TermIx S L) (h : ix.WF) : LeafOK (termR A) ix.env (ix.lv A) := by
  intro l
  exact ⟨termR_new (h l), fun _ => rfl⟩

theorem TermIx.nonneg {ix : TermIx S L} (h : ix.WF) {q : BQuery L} {d : Int} (hm : q.matches' ix.has ix.live d = true) : 0 ≤ d := by
  refine matches_nonneg (fun l hl => ?_) (fun hl => ?_) q hm
  · simp only [TermIx.has, List.any_eq_true, decide_eq_true_eq] at hl
    obtain ⟨e, he, rfl⟩ := hl
    exact (h l).2 e he
  · simp only [TermIx.live, Bool.and_eq_true, decide_eq_true_eq] at hl
    exact hl.1.1

end Ferret.Scorer
