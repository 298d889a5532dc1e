import Verif.Spec.Explain
import Verif.Lemmas.BoolQuery

/-! What weights hold once q_weight made them, and what explanations of them give. -/

namespace Ferret.Scorer
open Ferret
open Ferret.Spec (Occur BQuery Exact)

variable {S L M : Type} {X : XArith S} {ix : EIx S L}

/-! ### Weights -/

/-- A weight after q_weight. -/
inductive GoodW (X : XArith S) (ix : EIx S L) : Weight S L → Prop
  | leaf {k w} (plain : Spec.Kind.plain k = true) (idf : w.idf = k.idf X ix) (boost : X.pos w.boost = true)
      (qnorm : X.pos w.qnorm = true) (qweight : w.qweight = X.mul (X.mul w.idf w.boost) w.qnorm)
      (value : w.value = X.mul w.qweight w.idf) : GoodW X ix (.leaf k w)
  | bool {v cs} (value : X.pos v = true) (some : ∃ c ∈ cs, c.1 ≠ Occur.mustNot) (sub : ∀ c ∈ cs, GoodW X ix c.2) :
      GoodW X ix (.bool v cs)

/-- A weight before its sum of squares is taken. -/
inductive PreW (X : XArith S) (ix : EIx S L) : Weight S L → Prop
  | leaf {k w} (plain : Spec.Kind.plain k = true) (idf : w.idf = k.idf X ix) (boost : X.pos w.boost = true) : PreW X ix (.leaf k w)
  | bool {v cs} (value : X.pos v = true) (some : ∃ c ∈ cs, c.1 ≠ Occur.mustNot)
      (sub : ∀ c ∈ cs, c.1 ≠ Occur.mustNot → PreW X ix c.2) (not : ∀ c ∈ cs, c.1 = Occur.mustNot → GoodW X ix c.2) :
      PreW X ix (.bool v cs)

/-- A weight after its sum of squares is taken. -/
inductive SummedW (X : XArith S) (ix : EIx S L) : Weight S L → Prop
  | leaf {k w} (plain : Spec.Kind.plain k = true) (idf : w.idf = k.idf X ix) (boost : X.pos w.boost = true)
      (qweight : w.qweight = X.mul w.idf w.boost) : SummedW X ix (.leaf k w)
  | bool {v cs} (value : X.pos v = true) (some : ∃ c ∈ cs, c.1 ≠ Occur.mustNot)
      (sub : ∀ c ∈ cs, c.1 ≠ Occur.mustNot → SummedW X ix c.2) (not : ∀ c ∈ cs, c.1 = Occur.mustNot → GoodW X ix c.2) :
      SummedW X ix (.bool v cs)

theorem GoodW.pre {w : Weight S L} (h : GoodW X ix w) : PreW X ix w := by
  induction h with
  | leaf h1 h2 h3 h4 h5 h6 => exact .leaf h1 h2 h3
  | bool h1 h2 h3 ih => exact .bool h1 h2 (fun c hc _ => ih c hc) (fun c hc _ => h3 c hc)

theorem idf_pos (hX : Exact X) (hix : Spec.EIx.Fine X ix) (k : Kind L) : X.pos (k.idf X ix) = true := by
  cases k
  · exact hix.idf _
  · exact hix.idf _
  · exact hX.pos_one
  · exact hX.pos_one

theorem sumSqL_spec (hX : Exact X) : ∀ (cs : List (Occur × Weight S L)) (sum : S),
    (∀ c ∈ cs, c.1 ≠ Occur.mustNot → X.pos (sumSq X c.2).1 = true ∧ SummedW X ix (sumSq X c.2).2) →
    (∀ c ∈ cs, c.1 = Occur.mustNot → GoodW X ix c.2) →
    (X.pos sum = true ∨ sum = X.zero ∧ ∃ c ∈ cs, c.1 ≠ Occur.mustNot) →
    X.pos (sumSqL X sum cs).1 = true ∧ (sumSqL X sum cs).2.map (·.1) = cs.map (·.1) ∧
      (∀ c ∈ (sumSqL X sum cs).2, c.1 ≠ Occur.mustNot → SummedW X ix c.2) ∧
      (∀ c ∈ (sumSqL X sum cs).2, c.1 = Occur.mustNot → GoodW X ix c.2)
  | [], sum, _, _, h => by
    rcases h with h | ⟨_, c, hc, _⟩
    · rw [sumSqL]; exact ⟨h, rfl, by simp, by simp⟩
    · simp at hc
  | (o, w) :: cs, sum, h1, h2, h3 => by
    rw [sumSqL]
    by_cases ho : o = .mustNot
    · rw [if_pos ho]
      have ih := sumSqL_spec hX cs sum (fun c hc => h1 c (List.mem_cons_of_mem _ hc)) (fun c hc => h2 c (List.mem_cons_of_mem _ hc))
        (h3.imp id fun ⟨h, c, hc, hn⟩ => ⟨h, c, by
          rcases List.mem_cons.1 hc with rfl | hc
          · exact absurd ho hn
          · exact hc, hn⟩)
      refine ⟨ih.1, by simp [ih.2.1], ?_, ?_⟩
      · intro c hc hn
        rcases List.mem_cons.1 hc with rfl | hc
        · exact absurd ho hn
        · exact ih.2.2.1 c hc hn
      · intro c hc hn
        rcases List.mem_cons.1 hc with rfl | hc
        · exact h2 _ (List.mem_cons_self ..) ho
        · exact ih.2.2.2 c hc hn
    · rw [if_neg ho]
      have hw := h1 (o, w) (List.mem_cons_self ..) ho
      have hs : X.pos (X.add sum (sumSq X w).1) = true := by
        rcases h3 with h3 | ⟨h3, _⟩
        · exact hX.pos_add _ _ h3 hw.1
        · rw [h3, hX.zero_add]; exact hw.1
      have ih := sumSqL_spec hX cs _ (fun c hc => h1 c (List.mem_cons_of_mem _ hc)) (fun c hc => h2 c (List.mem_cons_of_mem _ hc)) (.inl hs)
      refine ⟨ih.1, by simp [ih.2.1], ?_, ?_⟩
      · intro c hc hn
        rcases List.mem_cons.1 hc with rfl | hc
        · exact hw.2
        · exact ih.2.2.1 c hc hn
      · intro c hc hn
        rcases List.mem_cons.1 hc with rfl | hc
        · exact absurd hn ho
        · exact ih.2.2.2 c hc hn

theorem some_of_map {cs ds : List (Occur × Weight S L)} (h : ds.map (·.1) = cs.map (·.1)) (hs : ∃ c ∈ cs, c.1 ≠ Occur.mustNot) :
    ∃ c ∈ ds, c.1 ≠ Occur.mustNot := by
  obtain ⟨c, hc, hn⟩ := hs
  have : c.1 ∈ ds.map (·.1) := h ▸ List.mem_map_of_mem hc
  obtain ⟨c', hc', e⟩ := List.mem_map.1 this
  exact ⟨c', hc', e ▸ hn⟩

theorem sumSq_spec (hX : Exact X) (hix : Spec.EIx.Fine X ix) {w : Weight S L} (h : PreW X ix w) :
    X.pos (sumSq X w).1 = true ∧ SummedW X ix (sumSq X w).2 := by
  induction h with
  | leaf h1 h2 h3 =>
    rw [sumSq]
    have : X.pos (X.mul _ _) = true := hX.pos_mul _ _ (h2 ▸ idf_pos hX hix _) h3
    exact ⟨hX.pos_mul _ _ this this, .leaf h1 h2 h3 rfl⟩
  | bool h1 h2 h3 h4 ih =>
    rw [sumSq]
    have := sumSqL_spec hX _ X.zero ih h4 (.inr ⟨rfl, h2⟩)
    exact ⟨hX.pos_mul _ _ this.1 (hX.pos_mul _ _ h1 h1), .bool h1 (some_of_map this.2.1 h2) this.2.2.1 this.2.2.2⟩

theorem normalizeL_map (nf : S) : ∀ cs : List (Occur × Weight S L),
    normalizeL X nf cs = cs.map fun c => (c.1, if c.1 = .mustNot then c.2 else normalize X nf c.2)
  | [] => by rw [normalizeL]; rfl
  | (o, w) :: cs => by rw [normalizeL, normalizeL_map nf cs]; rfl

theorem normalize_spec (hX : Exact X) {w : Weight S L} (h : SummedW X ix w) : ∀ {nf : S}, X.pos nf = true →
    GoodW X ix (normalize X nf w) := by
  induction h with
  | leaf h1 h2 h3 h4 =>
    intro nf hn
    rw [normalize]
    exact .leaf h1 h2 h3 hn (by dsimp only; rw [h4]) rfl
  | bool h1 h2 h3 h4 ih =>
    intro nf hn
    rw [normalize, normalizeL_map]
    refine .bool h1 (some_of_map (by simp [Function.comp_def]) h2) fun c hc => ?_
    obtain ⟨c', hc', rfl⟩ := List.mem_map.1 hc
    dsimp only
    by_cases ho : c'.1 = .mustNot
    · rw [if_pos ho]; exact h4 c' hc' ho
    · rw [if_neg ho]; exact ih c' hc' ho (hX.pos_mul _ _ hn h1)

theorem settle_good (hX : Exact X) (hix : Spec.EIx.Fine X ix) {w : Weight S L} (h : PreW X ix w) : GoodW X ix (settle X w) := by
  have := sumSq_spec hX hix h
  exact normalize_spec hX this.2 (hX.norm_pos _ this.1)

theorem eq_ind {P : EQuery S L → Prop} (hl : ∀ k b, P (.leaf k b))
    (hb : ∀ b cs, (∀ c ∈ cs, P c.2) → P (.bool b cs)) : ∀ q, P q := by
  intro q
  refine EQuery.rec (motive_1 := P) (motive_2 := fun cs => ∀ c ∈ cs, P c.2) (motive_3 := fun c => P c.2) hl hb (by simp) ?_ (fun _ _ h => h) q
  intro c cs h1 h2 x hx
  rcases List.mem_cons.mp hx with rfl | h
  · exact h1
  · exact h2 x h

theorem qWeightL_map : ∀ cs : List (Occur × EQuery S L), qWeightL X ix cs = cs.map fun c => (c.1, qWeight X ix c.2)
  | [] => by rw [qWeightL]; rfl
  | (o, q) :: cs => by rw [qWeightL, qWeightL_map cs]; rfl

theorem fineL_mem : ∀ {cs : List (Occur × EQuery S L)}, Spec.EQuery.fineL X cs = true → ∀ c ∈ cs, Spec.EQuery.fine X c.2 = true
  | [], _, c, hc => by simp at hc
  | (o, q) :: cs, h, c, hc => by
    rw [Spec.EQuery.fineL, Bool.and_eq_true] at h
    rcases List.mem_cons.1 hc with rfl | hc
    · exact h.1
    · exact fineL_mem h.2 c hc

theorem qWeight_good (hX : Exact X) (hix : Spec.EIx.Fine X ix) : ∀ q : EQuery S L, Spec.EQuery.fine X q = true →
    GoodW X ix (qWeight X ix q) := by
  intro q
  induction q using eq_ind with
  | hl k b =>
    intro h
    rw [Spec.EQuery.fine, Bool.and_eq_true] at h
    rw [qWeight]
    exact settle_good hX hix (.leaf h.1 rfl h.2)
  | hb b cs ih =>
    intro h
    rw [Spec.EQuery.fine, Bool.and_eq_true, Bool.and_eq_true] at h
    rw [qWeight]
    have hm := qWeightL_map (X := X) (ix := ix) cs
    have hg : ∀ c ∈ qWeightL X ix cs, GoodW X ix c.2 := by
      intro c hc
      rw [hm] at hc
      obtain ⟨c', hc', rfl⟩ := List.mem_map.1 hc
      exact ih c' hc' (fineL_mem h.2 c' hc')
    refine settle_good hX hix (.bool h.1.1 ?_ (fun c hc _ => (hg c hc).pre) (fun c hc _ => hg c hc))
    obtain ⟨c, hc, hn⟩ := List.any_eq_true.1 h.1.2
    refine ⟨(c.1, qWeight X ix c.2), ?_, by simpa using hn⟩
    rw [hm]
    exact List.mem_map.2 ⟨c, hc, rfl⟩

/-! ### The shape of the scorers -/

mutual
/-- A query with other leaves. -/
def mapLeaf (f : L → M) : BQuery L → BQuery M
  | .leaf l => .leaf (f l)
  | .all => .all
  | .bool cs => .bool (mapLeafL f cs)
def mapLeafL (f : L → M) : List (Occur × BQuery L) → List (Occur × BQuery M)
  | [] => []
  | (o, q) :: cs => (o, mapLeaf f q) :: mapLeafL f cs
end

theorem mapLeafL_map (f : L → M) : ∀ cs : List (Occur × BQuery L), mapLeafL f cs = cs.map fun c => (c.1, mapLeaf f c.2)
  | [] => by rw [mapLeafL]; rfl
  | (o, q) :: cs => by rw [mapLeafL, mapLeafL_map f cs]; rfl

theorem treeL_map : ∀ cs : List (Occur × Weight S L), Weight.treeL cs = cs.map fun c => (c.1, c.2.tree)
  | [] => by rw [Weight.treeL]; rfl
  | (o, w) :: cs => by rw [Weight.treeL, treeL_map cs]; rfl

theorem shapeL_map : ∀ cs : List (Occur × EQuery S L), Spec.EQuery.shapeL cs = cs.map fun c => (c.1, Spec.EQuery.shape c.2)
  | [] => by rw [Spec.EQuery.shapeL]; rfl
  | (o, q) :: cs => by rw [Spec.EQuery.shapeL, shapeL_map cs]; rfl

theorem wt_ind {P : Weight S L → Prop} (hl : ∀ k w, P (.leaf k w))
    (hb : ∀ v cs, (∀ c ∈ cs, P c.2) → P (.bool v cs)) : ∀ w, P w := by
  intro w
  refine Weight.rec (motive_1 := P) (motive_2 := fun cs => ∀ c ∈ cs, P c.2) (motive_3 := fun c => P c.2) hl hb (by simp) ?_ (fun _ _ h => h) w
  intro c cs h1 h2 x hx
  rcases List.mem_cons.mp hx with rfl | h
  · exact h1
  · exact h2 x h

/-- The shape of a weight's scorers. -/
abbrev Weight.shape (w : Weight S L) : BQuery (Kind L) := mapLeaf Prod.fst w.tree

theorem Weight.shape_bool (v : S) (cs : List (Occur × Weight S L)) : (Weight.bool v cs).shape = .bool (cs.map fun c => (c.1, c.2.shape)) := by
  rw [Weight.shape, Weight.tree, mapLeaf, mapLeafL_map, treeL_map, List.map_map]; rfl

theorem sumSqL_shape : ∀ (cs : List (Occur × Weight S L)) (sum : S), (∀ c ∈ cs, (sumSq X c.2).2.shape = c.2.shape) →
    (sumSqL X sum cs).2.map (fun c => (c.1, c.2.shape)) = cs.map (fun c => (c.1, c.2.shape))
  | [], _, _ => by rw [sumSqL]
  | (o, w) :: cs, sum, h => by
    rw [sumSqL]
    by_cases ho : o = .mustNot
    · rw [if_pos ho]
      simp only [List.map_cons]
      rw [sumSqL_shape cs sum fun c hc => h c (List.mem_cons_of_mem _ hc)]
    · rw [if_neg ho]
      simp only [List.map_cons]
      rw [sumSqL_shape cs _ fun c hc => h c (List.mem_cons_of_mem _ hc), h (o, w) (List.mem_cons_self ..)]

theorem sumSq_shape (w : Weight S L) : (sumSq X w).2.shape = w.shape := by
  induction w using wt_ind with
  | hl k w => simp only [sumSq, Weight.shape, Weight.tree, mapLeaf]
  | hb v cs ih => rw [sumSq, Weight.shape_bool, Weight.shape_bool, sumSqL_shape cs _ ih]

theorem normalize_shape (w : Weight S L) : ∀ nf : S, (normalize X nf w).shape = w.shape := by
  induction w using wt_ind with
  | hl k w => intro nf; simp only [normalize, Weight.shape, Weight.tree, mapLeaf]
  | hb v cs ih =>
    intro nf
    rw [normalize, Weight.shape_bool, Weight.shape_bool, normalizeL_map, List.map_map]
    congr 1
    refine List.map_congr_left fun c hc => ?_
    simp only [Function.comp_apply]
    by_cases ho : c.1 = .mustNot
    · rw [if_pos ho]
    · rw [if_neg ho, ih c hc]

theorem qWeight_shape (q : EQuery S L) : (qWeight X ix q).shape = Spec.EQuery.shape q := by
  induction q using eq_ind with
  | hl k b =>
    rw [qWeight, settle, normalize_shape, sumSq_shape, Weight.shape, Weight.tree, mapLeaf, Spec.EQuery.shape]
  | hb b cs ih =>
    rw [qWeight, settle, normalize_shape, sumSq_shape, Weight.shape_bool, qWeightL_map, Spec.EQuery.shape, shapeL_map, List.map_map]
    congr 1
    exact List.map_congr_left fun c hc => by simp only [Function.comp_apply]; rw [ih c hc]

theorem filter_mapLeaf (f : L → M) (k : Occur) (cs : List (Occur × BQuery L)) :
    ((mapLeafL f cs).filter (·.1 = k)).length = (cs.filter (·.1 = k)).length := by
  rw [mapLeafL_map, List.filter_map, List.length_map]; rfl

theorem conjFree_mapLeaf (f : L → M) (q : BQuery L) : (mapLeaf f q).conjFree = q.conjFree := by
  induction q using bq_ind with
  | hl l => rw [mapLeaf, BQuery.conjFree, BQuery.conjFree, BQuery.conjFreeW, BQuery.conjFreeW]
  | ha => rw [mapLeaf, BQuery.conjFree, BQuery.conjFree, BQuery.conjFreeW, BQuery.conjFreeW]
  | hb cs ih =>
    rw [mapLeaf, BQuery.conjFree, BQuery.conjFree, BQuery.conjFreeW, BQuery.conjFreeW, filter_mapLeaf]
    congr 1
    induction cs with
    | nil => rw [mapLeafL, BQuery.conjFreeLW, BQuery.conjFreeLW]
    | cons c cs ihl =>
      obtain ⟨o, q⟩ := c
      rw [mapLeafL, BQuery.conjFreeLW, BQuery.conjFreeLW, ihl fun c hc => ih c (List.mem_cons_of_mem _ hc)]
      congr 1
      exact ih (o, q) (List.mem_cons_self ..)

theorem shallow_mapLeaf (f : L → M) (q : BQuery L) : (mapLeaf f q).shallow = q.shallow := by
  induction q using bq_ind with
  | hl l => rw [mapLeaf, BQuery.shallow, BQuery.shallow, BQuery.shallowW, BQuery.shallowW]
  | ha => rw [mapLeaf, BQuery.shallow, BQuery.shallow, BQuery.shallowW, BQuery.shallowW]
  | hb cs ih =>
    rw [mapLeaf, BQuery.shallow, BQuery.shallow, BQuery.shallowW, BQuery.shallowW, filter_mapLeaf]
    generalize decide (2 ≤ (cs.filter (·.1 = .must)).length) = two
    generalize decide (1 ≤ (cs.filter (·.1 = .must)).length) = one
    induction cs with
    | nil => rw [mapLeafL, BQuery.shallowLW, BQuery.shallowLW]
    | cons c cs ihl =>
      obtain ⟨o, q⟩ := c
      have h1 := ihl fun c hc => ih c (List.mem_cons_of_mem _ hc)
      have h2 := ih (o, q) (List.mem_cons_self ..)
      have h3 := conjFree_mapLeaf f q
      simp only [BQuery.shallow, BQuery.conjFree] at h2 h3
      cases o
      all_goals rw [mapLeafL, BQuery.shallowLW, BQuery.shallowLW, h1]; first | rw [h2, h3] | rw [h3]

theorem proper_tree {w : Weight S L} (h : GoodW X ix w) : proper w.tree = true := by
  induction h with
  | leaf => rw [Weight.tree, proper]
  | bool h1 h2 h3 ih =>
    rw [Weight.tree, proper, Bool.and_eq_true, treeL_map]
    refine ⟨?_, properL_of fun c hc => ?_⟩
    · obtain ⟨c, hc, hn⟩ := h2
      simp only [Bool.or_eq_true, Bool.not_eq_true', List.all_eq_false]
      exact .inr ⟨_, List.mem_map.2 ⟨c, hc, rfl⟩, by simpa using hn⟩
    · obtain ⟨c', hc', rfl⟩ := List.mem_map.1 hc
      exact ih c' hc'

/-! ### What the leaves give -/

/-- What the scorer of a leaf enumerates. -/
def EIx.lv (X : XArith S) (ix : EIx S L) : Kind L × S → View S
  | (.term l, v) => termView X.toArith (fun f => X.mul (X.tf f) v) (ix.norm l) (ix.postings l)
  | (.absent _, v) => allView (fun _ => true) 0 v
  | (.all, v) => allView ix.deleted ix.maxDoc v
  | (.const l, v) => allView (fun d => !ix.bits l d) ix.maxDoc v

/-- The environment with a scorer of nothing for absent fields. -/
def EIx.env' (X : XArith S) (ix : EIx S L) : Env (Leaf (TermW S) S) S (Kind L × S) :=
  { ix.env X with mkLeaf := fun l => some ((ix.scorer X l).getD (.inr ⟨fun _ => true, 0, l.2, -1⟩)) }

theorem EIx.leafOK (hix : Spec.EIx.Fine X ix) : LeafOK (leafR (termR X.toArith)) (ix.env' X) (ix.lv X) := by
  rintro ⟨k, v⟩
  cases k with
  | term l => exact ⟨termR_new ⟨hix.sorted l, fun e he => (hix.held l e he).1⟩, fun _ => rfl⟩
  | absent l => exact ⟨matchR_new, fun _ => rfl⟩
  | all => exact ⟨matchR_new, fun _ => rfl⟩
  | const l => exact ⟨matchR_new, fun _ => rfl⟩

/-- Nothing in the tree is over an absent field. -/
inductive NoAbsent : BQuery (Kind L × S) → Prop
  | leaf {k : Kind L} {v : S} (h : Spec.Kind.plain k = true) : NoAbsent (.leaf (k, v))
  | all : NoAbsent .all
  | bool {cs} (h : ∀ c ∈ cs, NoAbsent c.2) : NoAbsent (.bool cs)

theorem mkScorer_env' {q : BQuery (Kind L × S)} (h : NoAbsent q) : ∀ n, mkScorer (ix.env' X) n q = mkScorer (ix.env X) n q := by
  induction h with
  | @leaf k v h =>
    intro n
    have : (ix.env' X).mkLeaf (k, v) = (ix.env X).mkLeaf (k, v) := by cases k <;> first | rfl | (simp [Spec.Kind.plain] at h)
    cases n <;> rw [mkScorer, mkScorer, this]
  | all => intro n; cases n <;> rw [mkScorer, mkScorer] <;> rfl
  | @bool cs h ih =>
    intro n
    cases n with
    | zero => rw [mkScorer, mkScorer]
    | succ n =>
      rw [mkScorer, mkScorer]
      have : cs.map (fun c => (c.1, mkScorer (ix.env' X) n c.2)) = cs.map (fun c => (c.1, mkScorer (ix.env X) n c.2)) :=
        List.map_congr_left fun c hc => by rw [ih c hc n]
      rw [this]

theorem GoodW.noAbsent {w : Weight S L} (h : GoodW X ix w) : NoAbsent w.tree := by
  induction h with
  | leaf h => rw [Weight.tree]; exact .leaf h
  | bool h1 h2 h3 ih =>
    rw [Weight.tree, treeL_map]
    refine .bool fun c hc => ?_
    obtain ⟨c', hc', rfl⟩ := List.mem_map.1 hc
    exact ih c' hc'

/-! ### Explaining leaves -/

theorem tscExplain_spec (hs : Sorted ps) (d : Int) : tscExplain X ps d =
    .ok (X.tf (match ps.find? (fun e => e.1 = d) with | some e => e.2 | none => 0)) := by
  unfold tscExplain tscSkipTo
  simp only [Term.new, tscScan, List.length_nil, List.getElem?_nil]
  cases hd : ps.dropWhile (fun e => decide (e.1 < d)) with
  | nil =>
    simp only [Res.ok_bind]
    have hf : ps.find? (fun e => decide (e.1 = d)) = none := by
      rw [List.find?_eq_none]
      intro e he
      have : ∀ e ∈ ps, decide (e.1 < d) = true := by
        have := List.takeWhile_append_dropWhile (p := fun e : Int × Nat => decide (e.1 < d)) (l := ps)
        rw [hd, List.append_nil] at this
        intro e he
        rw [← this] at he
        exact (List.all_eq_true.1 (List.all_takeWhile ..)) e he
      have := this e he
      simp only [decide_eq_true_eq] at this ⊢
      omega
    rw [hf]
    simp
  | cons e rest =>
    simp only [Res.ok_bind, List.getElem?_cons_zero]
    have hsplit := List.takeWhile_append_dropWhile (p := fun e : Int × Nat => decide (e.1 < d)) (l := ps)
    rw [hd] at hsplit
    have hpre : (ps.takeWhile (fun e => decide (e.1 < d))).find? (fun e => decide (e.1 = d)) = none := by
      rw [List.find?_eq_none]
      intro x hx
      have := (List.all_eq_true.1 (List.all_takeWhile (p := fun e : Int × Nat => decide (e.1 < d)) (l := ps))) x hx
      simp only [decide_eq_true_eq] at this ⊢
      omega
    have hge : ¬ e.1 < d := by
      have := List.head?_dropWhile_not (fun e : Int × Nat => decide (e.1 < d)) ps
      rw [hd] at this
      simpa using this
    by_cases he : e.1 = d
    · rw [if_pos he, ← hsplit, List.find?_append, hpre]
      simp [he]
    · rw [if_neg he, ← hsplit, List.find?_append, hpre]
      have : rest.find? (fun e => decide (e.1 = d)) = none := by
        rw [List.find?_eq_none]
        intro x hx
        have hp := hs.1
        rw [← hsplit] at hp
        have := (List.pairwise_cons.1 (List.pairwise_append.1 hp).2.1).1 x hx
        simp only [decide_eq_true_eq]
        omega
      simp [he, this]

/-- What a leaf's explanation gives. -/
theorem leafExplain_spec (hX : Exact X) (hix : Spec.EIx.Fine X ix) {k : Kind L} {w : Wgt S} (h : GoodW X ix (.leaf k w)) {d : Int}
    (hd : Spec.EIx.live ix d) :
    leafExplain X ix w d k = .ok (if (ix.lv X (k, w.value)).docs d = true then (ix.lv X (k, w.value)).sc d else X.zero) ∧
      ((ix.lv X (k, w.value)).docs d = true → X.pos ((ix.lv X (k, w.value)).sc d) = true) := by
  cases h with
  | leaf hp hidf hb hn hq hv =>
    have hi : X.pos w.idf = true := hidf ▸ idf_pos hX hix k
    have hqp : X.pos w.qweight = true := hq ▸ hX.pos_mul _ _ (hX.pos_mul _ _ hi hb) hn
    have hvp : X.pos w.value = true := hv ▸ hX.pos_mul _ _ hqp hi
    cases k with
    | absent l => simp [Spec.Kind.plain] at hp
    | const l => simp [Spec.Kind.plain] at hp
    | all =>
      have hdoc : (ix.lv X (.all, w.value)).docs d = true := by simp [EIx.lv, allView, hd.1, hd.2.1, hd.2.2]
      refine ⟨?_, fun _ => hvp⟩
      rw [if_pos hdoc]
      simp only [leafExplain, EIx.lv, allView, ite_self]
    | term l =>
      have hm1 := hX.mul_comm
      have hm2 := hX.mul_assoc
      have hzm : ∀ a, X.mul a X.zero = X.zero := fun a => by rw [hm1, hX.zero_mul]
      simp only [leafExplain, twExplain, EIx.lv, termView]
      rw [tscExplain_spec ⟨hix.sorted l, fun e he => (hix.held l e he).1⟩, Res.ok_bind, normAt, if_pos ⟨hd.1, hd.2.1⟩, Res.ok_bind]
      cases hf : (ix.postings l).find? (fun e => decide (e.1 = d)) with
      | none =>
        have hany : (ix.postings l).any (fun e => decide (e.1 = d)) = false := by
          rw [List.any_eq_false]
          exact fun x hx => List.find?_eq_none.1 hf x hx
        simp only [hany]
        refine ⟨?_, fun h => absurd h (by decide)⟩
        simp only [hX.tf_zero, hX.zero_mul, hzm, ite_self]
      | some e =>
        have hmem := List.mem_of_find?_eq_some hf
        have hany : (ix.postings l).any (fun e => decide (e.1 = d)) = true :=
          List.any_eq_true.2 ⟨e, hmem, List.find?_some (p := fun e : Int × Nat => decide (e.1 = d)) hf⟩
        simp only [hany, if_true]
        have key : X.mul (X.mul (X.mul w.boost w.idf) w.qnorm) (X.mul (X.mul (X.tf e.2) w.idf) (ix.norm l d)) =
            X.mul (X.mul (X.tf e.2) w.value) (ix.norm l d) := by
          rw [hv, hq, ← hm2]
          congr 1
          rw [hm1 w.boost w.idf]
          generalize X.mul (X.mul w.idf w.boost) w.qnorm = Q
          rw [← hm2, hm1 Q, hm2]
        refine ⟨?_, fun _ => hX.pos_mul _ _ (hX.pos_mul _ _ (hX.tf_pos _ (hix.occurs l e hmem)) hvp) (hix.norm l d)⟩
        congr 1
        by_cases h1 : X.isOne (X.mul (X.mul w.boost w.idf) w.qnorm) = true
        · rw [if_pos h1, ← key, (hX.isOne _).1 h1, hX.one_mul]
        · rw [if_neg h1, key]

/-! ### Explaining boolean queries -/

section
variable (D : Kind L × S → Int → Bool) (live : Int → Bool) (sc : Kind L × S → Int → S) (z : S) (d : Int)

/-- The explanation of a weight is the score of its tree, and zero where the tree does not match. -/
def ExplainsAs (X : XArith S) (ix : EIx S L) (w : Weight S L) : Prop :=
  explainW X ix d w = .ok (if w.tree.matches' D live d = true then w.tree.score X.spec D live sc z d else X.zero) ∧
    (w.tree.matches' D live d = true → X.pos (w.tree.score X.spec D live sc z d) = true)

theorem explainL_map : ∀ cs : List (Occur × Weight S L), explainL X ix d cs = cs.map fun c => (c.1, explainW X ix d c.2)
  | [] => by rw [explainL]; rfl
  | (o, w) :: cs => by rw [explainL, explainL_map cs]; rfl

/-- A clause stops the loop. -/
def stops (c : Occur × Weight S L) : Bool :=
  (c.1 = .mustNot && c.2.tree.matches' D live d) || (c.1 = .must && !c.2.tree.matches' D live d)

/-- Matching clauses that are not prohibited. -/
def hitsOf (cs : List (Occur × Weight S L)) : List (Occur × Weight S L) :=
  cs.filter fun c => decide (c.1 ≠ .mustNot) && c.2.tree.matches' D live d

theorem bwExplainLoop_spec (hX : Exact X) : ∀ (cs : List (Occur × Weight S L)) (sum : S) (k m : Nat),
    (∀ c ∈ cs, ExplainsAs D live sc z d X ix c.2) → (k = 0 → sum = X.zero) → (0 < k → X.pos sum = true) →
    if cs.any (stops D live d) = true then bwExplainLoop X sum k m (explainL X ix d cs) = .ok (.inl X.zero)
    else ∃ t, bwExplainLoop X sum k m (explainL X ix d cs) =
        .ok (.inr (t, k + (hitsOf D live d cs).length, m + (cs.filter (fun c => decide (c.1 ≠ .mustNot))).length)) ∧
      t = X.add sum (total X.toArith ((hitsOf D live d cs).map fun c => c.2.tree.score X.spec D live sc z d)) ∧
      (k + (hitsOf D live d cs).length = 0 → t = X.zero) ∧ (0 < k + (hitsOf D live d cs).length → X.pos t = true)
  | [], sum, k, m, _, h0, h1 => by
    simp only [List.any_nil, Bool.false_eq_true, if_false]
    exact ⟨sum, by rw [explainL, bwExplainLoop]; rfl, by rw [hX.add_comm]; exact (hX.zero_add sum).symm, h0, h1⟩
  | (o, w) :: cs, sum, k, m, h, h0, h1 => by
    have hw := h (o, w) (List.mem_cons_self ..)
    have hcs : ∀ c ∈ cs, ExplainsAs D live sc z d X ix c.2 := fun c hc => h c (List.mem_cons_of_mem _ hc)
    rw [explainL, bwExplainLoop, hw.1, Res.ok_bind]
    simp only []
    by_cases hm : w.tree.matches' D live d = true
    · rw [if_pos hm, if_pos (hw.2 hm)]
      by_cases ho : o = .mustNot
      · rw [if_pos ho]
        have : ((o, w) :: cs).any (stops D live d) = true := by simp [stops, ho, hm]
        rw [if_pos this]
      · rw [if_neg ho, if_neg ho]
        have hp : X.pos (X.add sum (w.tree.score X.spec D live sc z d)) = true := by
          rcases Nat.eq_zero_or_pos k with hk | hk
          · rw [h0 hk, hX.zero_add]; exact hw.2 hm
          · exact hX.pos_add _ _ (h1 hk) (hw.2 hm)
        have ih := bwExplainLoop_spec hX cs _ (k + 1) (m + 1) hcs (fun h => by omega) (fun _ => hp)
        have hany : ((o, w) :: cs).any (stops D live d) = cs.any (stops D live d) := by simp [stops, ho, hm]
        have hhits : hitsOf D live d ((o, w) :: cs) = (o, w) :: hitsOf D live d cs := by simp [hitsOf, ho, hm]
        have hlen : ((o, w) :: cs).filter (fun c => decide (c.1 ≠ .mustNot)) = (o, w) :: cs.filter (fun c => decide (c.1 ≠ .mustNot)) := by
          simp [ho]
        rw [hany, hhits, hlen]
        by_cases ha : cs.any (stops D live d) = true
        · rw [if_pos ha] at ih ⊢; exact ih
        · rw [if_neg ha] at ih ⊢
          obtain ⟨t, e1, e2, e3, e4⟩ := ih
          refine ⟨t, ?_, ?_, fun h => by simp at h, fun _ => e4 (by omega)⟩
          · rw [e1, List.length_cons, List.length_cons]
            congr 4
            · omega
            · omega
          · rw [e2, List.map_cons, total, hX.add_assoc]
    · rw [if_neg hm, hX.pos_zero]
      simp only [Bool.false_eq_true, if_false]
      by_cases ho : o = .must
      · rw [if_pos ho]
        have : ((o, w) :: cs).any (stops D live d) = true := by simp [stops, ho, hm]
        rw [if_pos this]
      · rw [if_neg ho]
        have ih := bwExplainLoop_spec hX cs sum k (if o = .mustNot then m else m + 1) hcs h0 h1
        have hany : ((o, w) :: cs).any (stops D live d) = cs.any (stops D live d) := by simp [stops, ho, hm]
        have hhits : hitsOf D live d ((o, w) :: cs) = hitsOf D live d cs := by simp [hitsOf, hm]
        rw [hany, hhits]
        by_cases ha : cs.any (stops D live d) = true
        · rw [if_pos ha] at ih ⊢; exact ih
        · rw [if_neg ha] at ih ⊢
          obtain ⟨t, e1, e2, e3, e4⟩ := ih
          refine ⟨t, ?_, e2, e3, e4⟩
          rw [e1]
          congr 4
          by_cases hn : o = .mustNot
          · simp [hn]
          · simp [hn]; omega

theorem treeL_cntOf (k : Occur) : ∀ cs : List (Occur × Weight S L), BQuery.cntOf D live d k (Weight.treeL cs) =
    (cs.filter fun c => decide (c.1 = k) && c.2.tree.matches' D live d).length
  | [] => by rw [Weight.treeL, BQuery.cntOf]; rfl
  | (o, w) :: cs => by
    rw [Weight.treeL, BQuery.cntOf, treeL_cntOf k cs]
    by_cases h : o = k ∧ w.tree.matches' D live d = true
    · rw [if_pos h, List.filter_cons_of_pos (by simp [h.1, h.2]), List.length_cons, Nat.add_comm]
    · rw [if_neg h, List.filter_cons_of_neg (by simpa using h)]

theorem treeL_sumOf (k : Occur) : ∀ cs : List (Occur × Weight S L), BQuery.sumOf X.spec D live sc z d k (Weight.treeL cs) =
    total X.toArith ((cs.filter fun c => decide (c.1 = k) && c.2.tree.matches' D live d).map fun c => c.2.tree.score X.spec D live sc z d)
  | [] => by rw [Weight.treeL, BQuery.sumOf]; rfl
  | (o, w) :: cs => by
    rw [Weight.treeL, BQuery.sumOf, treeL_sumOf k cs]
    by_cases h : o = k ∧ w.tree.matches' D live d = true
    · rw [if_pos h, List.filter_cons_of_pos (by simp [h.1, h.2])]; rfl
    · rw [if_neg h, List.filter_cons_of_neg (by simpa using h)]

/-- The sum of the matching clauses is that of the MUST and that of the SHOULD clauses. -/
theorem total_hits (hX : Exact X) : ∀ cs : List (Occur × Weight S L),
    total X.toArith ((hitsOf D live d cs).map fun c => c.2.tree.score X.spec D live sc z d) =
      X.add (BQuery.sumOf X.spec D live sc z d .must (Weight.treeL cs)) (BQuery.sumOf X.spec D live sc z d .should (Weight.treeL cs))
  | [] => by
    rw [Weight.treeL, BQuery.sumOf, BQuery.sumOf]
    exact (hX.zero_add _).symm
  | (o, w) :: cs => by
    have ih := total_hits hX cs
    rw [Weight.treeL, BQuery.sumOf, BQuery.sumOf]
    by_cases hm : w.tree.matches' D live d = true
    · cases o with
      | mustNot =>
        have : hitsOf D live d ((.mustNot, w) :: cs) = hitsOf D live d cs := by simp [hitsOf]
        rw [this, ih]; simp
      | must =>
        have : hitsOf D live d ((.must, w) :: cs) = (.must, w) :: hitsOf D live d cs := by simp [hitsOf, hm]
        rw [this, List.map_cons, total, ih, if_pos ⟨rfl, hm⟩, if_neg (by simp)]
        exact (hX.add_assoc _ _ _).symm
      | should =>
        have : hitsOf D live d ((.should, w) :: cs) = (.should, w) :: hitsOf D live d cs := by simp [hitsOf, hm]
        rw [this, List.map_cons, total, ih, if_neg (by simp), if_pos ⟨rfl, hm⟩, ← hX.add_assoc, hX.add_comm (w.tree.score ..), hX.add_assoc]
        rfl
    · have : hitsOf D live d ((o, w) :: cs) = hitsOf D live d cs := by simp [hitsOf, hm]
      rw [this, ih]; simp [hm]

theorem length_hits : ∀ cs : List (Occur × Weight S L), (hitsOf D live d cs).length =
    BQuery.cntOf D live d .must (Weight.treeL cs) + BQuery.cntOf D live d .should (Weight.treeL cs)
  | [] => by rw [Weight.treeL, BQuery.cntOf, BQuery.cntOf]; rfl
  | (o, w) :: cs => by
    have ih := length_hits cs
    rw [Weight.treeL, BQuery.cntOf, BQuery.cntOf]
    by_cases hm : w.tree.matches' D live d = true
    · cases o with
      | mustNot =>
        have : hitsOf D live d ((.mustNot, w) :: cs) = hitsOf D live d cs := by simp [hitsOf]
        rw [this, ih]; simp
      | must =>
        have : hitsOf D live d ((.must, w) :: cs) = (.must, w) :: hitsOf D live d cs := by simp [hitsOf, hm]
        rw [this, List.length_cons, ih, if_pos ⟨rfl, hm⟩, if_neg (by simp)]; omega
      | should =>
        have : hitsOf D live d ((.should, w) :: cs) = (.should, w) :: hitsOf D live d cs := by simp [hitsOf, hm]
        rw [this, List.length_cons, ih, if_neg (by simp), if_pos ⟨rfl, hm⟩]; omega
    · have : hitsOf D live d ((o, w) :: cs) = hitsOf D live d cs := by simp [hitsOf, hm]
      rw [this, ih]; simp [hm]

theorem length_others : ∀ cs : List (Occur × Weight S L), (cs.filter (fun c => decide (c.1 ≠ .mustNot))).length =
    ((Weight.treeL cs).filter (·.1 = .must)).length + ((Weight.treeL cs).filter (·.1 = .should)).length
  | [] => by rw [Weight.treeL]; rfl
  | (o, w) :: cs => by
    have ih := length_others cs
    rw [Weight.treeL]
    cases o
    · simp at ih ⊢; omega
    · simp at ih ⊢; omega
    · simp at ih ⊢; omega

end

/-- The explanation of a weight gives the score of its tree where that matches, and zero elsewhere. -/
theorem explainW_spec (hX : Exact X) (hix : Spec.EIx.Fine X ix) {w : Weight S L} (h : GoodW X ix w) {d : Int} (hd : Spec.EIx.live ix d)
    (live : Int → Bool) (z : S) :
    ExplainsAs (fun l => (ix.lv X l).docs) live (fun l => (ix.lv X l).sc) z d X ix w := by
  induction h with
  | leaf h1 h2 h3 h4 h5 h6 =>
    have := leafExplain_spec hX hix (.leaf h1 h2 h3 h4 h5 h6) hd
    unfold ExplainsAs
    rw [explainW, Weight.tree, BQuery.matches', BQuery.score]
    exact this
  | @bool v cs h1 h2 h3 ih =>
    generalize hD : (fun l => (ix.lv X l).docs) = D at ih ⊢
    generalize hsc : (fun l => (ix.lv X l).sc) = sc at ih ⊢
    have hloop := bwExplainLoop_spec D live sc z d hX cs X.zero 0 0 ih (fun _ => rfl) (fun h => absurd h (by omega))
    have hnall : (!(Weight.treeL cs).isEmpty && (Weight.treeL cs).all (·.1 = .mustNot)) = false := by
      obtain ⟨c, hc, hn⟩ := h2
      rw [Bool.and_eq_false_iff]
      right
      rw [List.all_eq_false, treeL_map]
      exact ⟨_, List.mem_map.2 ⟨c, hc, rfl⟩, by simpa using hn⟩
    have hmatch : (Weight.bool v cs).tree.matches' D live d = true ↔
        cs.any (stops D live d) = false ∧ 0 < (hitsOf D live d cs).length := by
      rw [Weight.tree, BQuery.matches_bool, treeL_map]
      constructor
      · rintro ⟨m1, m2, m3⟩
        have hs : cs.any (stops D live d) = false := by
          rw [List.any_eq_false]
          intro c hc hst
          simp only [stops, Bool.or_eq_true, Bool.and_eq_true, decide_eq_true_eq, Bool.not_eq_true'] at hst
          rcases hst with ⟨e, e'⟩ | ⟨e, e'⟩
          · rw [m2 c.2.tree (List.mem_map.2 ⟨c, hc, by rw [e]⟩)] at e'; cases e'
          · rw [m1 c.2.tree (List.mem_map.2 ⟨c, hc, by rw [e]⟩)] at e'; cases e'
        refine ⟨hs, ?_⟩
        have : ∃ c ∈ cs, c.1 ≠ .mustNot ∧ c.2.tree.matches' D live d = true := by
          rcases m3 with ⟨q, hq⟩ | ⟨q, hq, hm⟩ | ⟨_, hall, _⟩
          · obtain ⟨c, hc, e⟩ := List.mem_map.1 hq
            simp only [Prod.mk.injEq] at e
            exact ⟨c, hc, by rw [e.1]; decide, by rw [e.2]; exact m1 q hq⟩
          · obtain ⟨c, hc, e⟩ := List.mem_map.1 hq
            simp only [Prod.mk.injEq] at e
            exact ⟨c, hc, by rw [e.1]; decide, by rw [e.2]; exact hm⟩
          · obtain ⟨c, hc, hn⟩ := h2
            exact absurd (hall _ (List.mem_map.2 ⟨c, hc, rfl⟩)) hn
        obtain ⟨c, hc, hn, hm⟩ := this
        refine List.length_pos_of_mem (a := c) (List.mem_filter.2 ⟨hc, by simp [hn, hm]⟩)
      · rintro ⟨hs, hpos⟩
        rw [List.any_eq_false] at hs
        have m1 : ∀ q, (Occur.must, q) ∈ cs.map (fun c => (c.1, c.2.tree)) → q.matches' D live d = true := by
          intro q hq
          obtain ⟨c, hc, e⟩ := List.mem_map.1 hq
          simp only [Prod.mk.injEq] at e
          have := hs c hc
          simp only [stops, e.1, e.2] at this
          simpa using this
        have m2 : ∀ q, (Occur.mustNot, q) ∈ cs.map (fun c => (c.1, c.2.tree)) → q.matches' D live d = false := by
          intro q hq
          obtain ⟨c, hc, e⟩ := List.mem_map.1 hq
          simp only [Prod.mk.injEq] at e
          have := hs c hc
          simp only [stops, e.1, e.2] at this
          simpa using this
        refine ⟨m1, m2, ?_⟩
        obtain ⟨c, hc⟩ := List.exists_mem_of_length_pos hpos
        obtain ⟨hc, hh⟩ := List.mem_filter.1 hc
        simp only [Bool.and_eq_true, decide_eq_true_eq] at hh
        cases ho : c.1 with
        | must => exact .inl ⟨c.2.tree, List.mem_map.2 ⟨c, hc, by rw [ho]⟩⟩
        | should => exact .inr (.inl ⟨c.2.tree, List.mem_map.2 ⟨c, hc, by rw [ho]⟩, hh.2⟩)
        | mustNot => exact absurd ho hh.1
    have hscore : (Weight.bool v cs).tree.score X.spec D live sc z d =
        X.mul (total X.toArith ((hitsOf D live d cs).map fun c => c.2.tree.score X.spec D live sc z d))
          (X.coord (hitsOf D live d cs).length (cs.filter (fun c => decide (c.1 ≠ .mustNot))).length) := by
      rw [Weight.tree, BQuery.score, hnall, total_hits D live sc z d hX, length_hits, length_others]
      rfl
    unfold ExplainsAs
    rw [explainW, bwExplain]
    by_cases ha : cs.any (stops D live d) = true
    · rw [if_pos ha] at hloop
      have hnm : ¬ (Weight.bool v cs).tree.matches' D live d = true := fun h => by rw [(hmatch.1 h).1] at ha; cases ha
      rw [hloop, Res.ok_bind]
      exact ⟨by rw [if_neg hnm], fun h => absurd h hnm⟩
    · rw [if_neg ha] at hloop
      obtain ⟨t, e1, e2, e3, e4⟩ := hloop
      rw [e1, Res.ok_bind]
      simp only [Nat.zero_add] at e3 e4 ⊢
      rw [hX.zero_add] at e2
      by_cases hp : 0 < (hitsOf D live d cs).length
      · have hm := hmatch.2 ⟨by simpa using ha, hp⟩
        have hle : (hitsOf D live d cs).length ≤ (cs.filter (fun c => decide (c.1 ≠ .mustNot))).length := by
          have : hitsOf D live d cs = (cs.filter (fun c => decide (c.1 ≠ .mustNot))).filter (fun c => c.2.tree.matches' D live d) := by
            rw [List.filter_filter]
            simp only [hitsOf, Bool.and_comm]
          rw [this]
          exact List.filter_sublist.length_le
        rw [if_pos hm, hscore, ← e2]
        refine ⟨?_, fun _ => hX.pos_mul _ _ (e4 hp) (hX.coord_pos _ _ hp hle)⟩
        congr 1
        split
        · rename_i h1
          rw [(hX.isOne _).1 h1, hX.mul_comm, hX.one_mul]
        · rfl
      · have hnm : ¬ (Weight.bool v cs).tree.matches' D live d = true := fun h => hp (hmatch.1 h).2
        rw [if_neg hnm, e3 (by omega)]
        refine ⟨?_, fun h => absurd h hnm⟩
        congr 1
        split
        · rfl
        · exact hX.zero_mul _

/-! ### Searching -/

theorem exact_lawful (hX : Exact X) : Lawful X.toArith := ⟨hX.add_comm, hX.add_assoc, hX.zero_add, hX.dcoord⟩

/-- Searching gives the matches of the weight's tree with their scores. -/
theorem searchQuery_spec (hX : Exact X) (hix : Spec.EIx.Fine X ix) (q : EQuery S L) (hq : Spec.EQuery.fine X q = true)
    (hs : (Spec.EQuery.shape q).shallow = true) :
    ∃ hits, searchQuery X ix q = .ok hits ∧ (hits.map (·.1)).Pairwise (· < ·) ∧
      (∀ d, d ∈ hits.map (·.1) ↔ (qWeight X ix q).tree.matches' (fun l => (ix.lv X l).docs) (ix.env X).live d = true ∧ 0 ≤ d) ∧
      ∀ h ∈ hits, h.2 = (qWeight X ix q).tree.score X.spec (fun l => (ix.lv X l).docs) (ix.env X).live (fun l => (ix.lv X l).sc) X.zero h.1 := by
  have hg := qWeight_good hX hix q hq
  have hsh : (qWeight X ix q).tree.shallow = true := by
    rw [← shallow_mapLeaf Prod.fst]
    show (qWeight X ix q).shape.shallow = true
    rw [qWeight_shape]; exact hs
  have hpr := proper_tree hg
  have hle := EIx.leafOK (X := X) hix
  unfold searchQuery
  simp only []
  rw [← mkScorer_env' hg.noAbsent]
  generalize (qWeight X ix q).tree = t at hsh hpr ⊢
  have hA : True → Lawful X.toArith := fun _ => exact_lawful hX
  have hms := mkScorer_spec (P := True) hA (good_leaf good_term) hle (depth t) t (Nat.le_refl _) hsh
  cases hm : mkScorer (ix.env' X) (depth t) t with
  | none =>
    rw [hm] at hms
    refine ⟨[], rfl, by simp, fun d => ?_, by simp⟩
    have := null_matches hle d t hms
    simp only [List.map_nil, List.not_mem_nil, false_iff, not_and]
    intro h
    have h' : t.matches' (fun l => (ix.lv X l).docs) (ix.env' X).live d = true := h
    rw [this] at h'; cases h'
  | some s =>
    rw [hm] at hms
    obtain ⟨hits, h1, h2, h3, h4⟩ := drain_spec (good_lvl hA (good_leaf (good_leaf good_term)) (depth t)) _ hms.2 (Nat.lt_succ_self _)
    refine ⟨hits, h1, h2, fun d => ?_, fun h hh => ?_⟩
    · rw [h3, view_docs hle d _ hpr hms.1]
      constructor <;> rintro ⟨a, b⟩ <;> exact ⟨a, by omega⟩
    · rw [h4 trivial h hh]
      have := (h3 h.1).mp (List.mem_map.mpr ⟨h, hh, rfl⟩)
      exact view_score (exact_lawful hX) hle (fun _ => rfl) h.1 _ hpr this.1

theorem docs_live (hix : Spec.EIx.Fine X ix) {w : Weight S L} (h : GoodW X ix w) {d : Int}
    (hm : w.tree.matches' (fun l => (ix.lv X l).docs) live d = true) : Spec.EIx.live ix d := by
  induction h with
  | @leaf k w h1 =>
    rw [Weight.tree, BQuery.matches'] at hm
    cases k with
    | absent l => simp [Spec.Kind.plain] at h1
    | const l => simp [Spec.Kind.plain] at h1
    | all =>
      simp only [EIx.lv, allView, Bool.and_eq_true, decide_eq_true_eq, Bool.not_eq_true'] at hm
      exact ⟨hm.1.1, hm.1.2, hm.2⟩
    | term l =>
      simp only [EIx.lv, termView, List.any_eq_true, decide_eq_true_eq] at hm
      obtain ⟨e, he, rfl⟩ := hm
      exact hix.held l e he
  | @bool v cs h1 h2 h3 ih =>
    rw [Weight.tree, BQuery.matches_bool, treeL_map] at hm
    obtain ⟨m1, m2, m3⟩ := hm
    rcases m3 with ⟨q, hq⟩ | ⟨q, hq, hmq⟩ | ⟨_, hall, _⟩
    · have := m1 q hq
      obtain ⟨c, hc, e⟩ := List.mem_map.1 hq
      simp only [Prod.mk.injEq] at e
      exact ih c hc (e.2 ▸ this)
    · obtain ⟨c, hc, e⟩ := List.mem_map.1 hq
      simp only [Prod.mk.injEq] at e
      exact ih c hc (e.2 ▸ hmq)
    · obtain ⟨c, hc, hn⟩ := h2
      exact absurd (hall _ (List.mem_map.2 ⟨c, hc, rfl⟩)) hn

end Ferret.Scorer
