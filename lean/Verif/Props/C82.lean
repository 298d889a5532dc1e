import Verif.Lemmas.Explain

/-! C82: the explanation of a document gives the score that a search gives it. -/

namespace Ferret.Props
open Ferret Ferret.Scorer Ferret.Spec

variable {S L : Type}

/-- **C82 (partial).** With exact arithmetic, for queries of terms and all documents under boolean queries of any depth
(with the restriction of C36 on nested conjunctions), positive boosts, and an index of positive norms: a search ends,
every document it gives is explained with the score it has there, and every other document of the index is explained
with zero. Not so for the queries and indexes of the theorems below. Missing: phrase, multi-term and span queries, and
rounding. -/
theorem c82_explained_partial (X : XArith S) (hX : Exact X) (ix : EIx S L) (hix : EIx.Fine X ix) (q : EQuery S L)
    (hq : EQuery.fine X q = true) (hs : (EQuery.shape q).shallow = true) :
    ∃ hits, searchQuery X ix q = .ok hits ∧ (hits.map (·.1)).Pairwise (· < ·) ∧
      (∀ h ∈ hits, EIx.live ix h.1 ∧ X.pos h.2 = true ∧ explain X ix q h.1 = .ok h.2) ∧
      ∀ d, EIx.live ix d → d ∉ hits.map (·.1) → explain X ix q d = .ok X.zero := by
  obtain ⟨hits, h1, h2, h3, h4⟩ := searchQuery_spec hX hix q hq hs
  have hg := qWeight_good hX hix q hq
  refine ⟨hits, h1, h2, fun h hh => ?_, fun d hd hn => ?_⟩
  · have hm := ((h3 h.1).1 (List.mem_map.2 ⟨h, hh, rfl⟩)).1
    have hl := docs_live hix hg hm
    have he := explainW_spec hX hix hg hl (ix.env X).live X.zero
    refine ⟨hl, ?_, ?_⟩
    · rw [h4 h hh]; exact he.2 hm
    · rw [h4 h hh]
      have := he.1
      rw [if_pos hm] at this
      exact this
  · have he := explainW_spec hX hix hg hd (ix.env X).live X.zero
    have hm : ¬ (qWeight X ix q).tree.matches' (fun l => (ix.lv X l).docs) (ix.env X).live d = true :=
      fun h => hn ((h3 d).2 ⟨h, hd.1⟩)
    have := he.1
    rw [if_neg hm] at this
    exact this

/-! ### Rational numbers -/

/-- Rational scores, a coordination factor of `k` of `n`, the frequency itself for its square root. -/
def ratX : XArith Rat where
  zero := 0
  add := (· + ·)
  mul := (· * ·)
  coord k n := (k : Rat) / n
  dcoord k n := if k = n then 1 else (k : Rat) / n
  one := 1
  tf n := n
  queryNorm s := 1 / s
  pos a := decide (0 < a)
  isOne a := decide (a = 1)

theorem ratX_exact : Exact ratX where
  add_comm := Rat.add_comm
  add_assoc := Rat.add_assoc
  zero_add := Rat.zero_add
  mul_comm := Rat.mul_comm
  mul_assoc := Rat.mul_assoc
  zero_mul := Rat.zero_mul
  one_mul := Rat.one_mul
  isOne a := by simp [ratX]
  pos_zero := by simp [ratX]
  pos_one := by decide
  pos_add a b := by
    simp only [ratX, decide_eq_true_eq]
    intro h1 h2
    exact Std.lt_of_lt_of_le h1 (by have := Rat.add_le_add_left (c := a) |>.2 (Rat.le_of_lt h2); rwa [Rat.add_zero] at this)
  pos_mul a b := by simp only [ratX, decide_eq_true_eq]; exact Rat.mul_pos
  tf_zero := rfl
  tf_pos n h := by simp only [ratX, decide_eq_true_eq]; exact_mod_cast h
  norm_pos a := by
    simp only [ratX, decide_eq_true_eq]
    intro h
    rw [Rat.div_def, Rat.one_mul]
    exact Rat.inv_pos.2 h
  coord_pos k n hk hn := by
    simp only [ratX, decide_eq_true_eq]
    rw [Rat.div_def]
    have h1 : (0 : Rat) < k := by exact_mod_cast hk
    have h2 : (0 : Rat) < n := by exact_mod_cast (by omega : 0 < n)
    exact Rat.mul_pos h1 (Rat.inv_pos.2 h2)
  dcoord a n _ := by simp [ratX, Rat.mul_one]

/-- Term 0 in documents 0, 1 and 3, term 1 in 1 and 3; document 2 deleted; the bits of filter 0 hold document 3. -/
def explIx : EIx Rat Nat where
  postings l := if l = 0 then [(0, 2), (1, 1), (3, 40)] else [(1, 3), (3, 1)]
  idf l := if l = 0 then 1 / 2 else 3
  norm _ d := if d = 1 then 1 / 2 else 1
  bits _ d := d == 3
  deleted d := d == 2
  maxDoc := 5

theorem explIx_fine : EIx.Fine ratX explIx where
  sorted l := by simp only [explIx]; split <;> decide
  held l := by simp only [explIx]; split <;> decide
  occurs l := by simp only [explIx]; split <;> decide
  idf l := by simp only [explIx]; split <;> decide +kernel
  norm l d := by simp only [explIx]; split <;> decide +kernel

/-- `+a^2 b (c -b)^3` -/
def explQuery : EQuery Rat Nat :=
  .bool 1 [(.must, .leaf (.term 0) 2), (.should, .leaf (.term 1) 1), (.should, .bool 3 [(.should, .leaf .all 1), (.mustNot, .leaf (.term 1) 1)])]
example : EQuery.fine ratX explQuery = true := by decide +kernel
example : (EQuery.shape explQuery).shallow = true := by decide +kernel
example : searchQuery ratX explIx explQuery = .ok [(0, 8 / 57), (1, 55 / 114), (3, 58 / 57)] := by decide +kernel
example : [0, 1, 3].map (explain ratX explIx explQuery) = [.ok (8 / 57), .ok (55 / 114), .ok (58 / 57)] := by decide +kernel
example : explain ratX explIx explQuery 4 = .ok 0 := by decide +kernel

/-! ### Where explanations and searches differ -/

/-- **C82, constant-score queries.** A constant-score query is explained with the same value for every document, whether
it is one of its documents or not. -/
theorem c82_constant_matches_all (X : XArith S) (ix : EIx S L) (l : L) (boost : S) (d d' : Int) :
    explain X ix (.leaf (.const l) boost) d = explain X ix (.leaf (.const l) boost) d' := by
  unfold explain
  rw [qWeight, settle, sumSq, normalize, explainW, explainW]
  simp only [leafExplain, ite_self]
example : searchQuery ratX explIx (.leaf (.const 0) 1) = .ok [(3, 1)] ∧ explain ratX explIx (.leaf (.const 0) 1) 0 = .ok 1 := by
  decide +kernel

theorem weight_const_pos (X : XArith S) (hX : Exact X) (ix : EIx S L) (l : L) (boost : S) (hb : X.pos boost = true) (d : Int) :
    ∃ v, explainW X ix d (qWeight X ix (.leaf (.const l) boost)) = .ok v ∧ X.pos v = true := by
  rw [qWeight, settle, sumSq, normalize, explainW]
  simp only [leafExplain, ite_self, Kind.idf, hX.one_mul]
  have h2 := hX.norm_pos _ (hX.pos_mul _ _ hb hb)
  exact ⟨_, rfl, hX.pos_mul _ _ (hX.pos_mul _ _ hb h2) hX.pos_one⟩

/-- **C82, constant-score queries prohibited.** A query that prohibits a constant-score query (which ranges become)
as its first clause explains every document with zero, whatever the other clauses give. -/
theorem c82_constant_prohibited (X : XArith S) (hX : Exact X) (ix : EIx S L) (l : L) (b boost : S) (hb : X.pos boost = true)
    (cs : List (Occur × EQuery S L)) (d : Int) :
    explain X ix (.bool b ((.mustNot, .leaf (.const l) boost) :: cs)) d = .ok X.zero := by
  obtain ⟨v, hv, hp⟩ := weight_const_pos X hX ix l boost hb d
  unfold explain
  rw [qWeight, qWeightL, settle, sumSq, sumSqL, if_pos rfl, normalize]
  simp only []
  rw [normalizeL]
  simp only [if_true]
  rw [explainW, explainL, bwExplain, bwExplainLoop, hv, Res.ok_bind, if_pos hp, if_pos rfl]
  rfl

/-- Such a search, `+a -range`: the documents it gives are explained with zero. -/
theorem c82_constant_prohibited_found :
    searchQuery ratX explIx (.bool 1 [(.mustNot, .leaf (.const 0) 1), (.must, .leaf (.term 0) 2)]) = .ok [(0, 1), (1, 1 / 4)] ∧
    (∀ d ∈ [0, 1], explain ratX explIx (.bool 1 [(.mustNot, .leaf (.const 0) 1), (.must, .leaf (.term 0) 2)]) d = .ok 0) := by
  decide +kernel
example : ratX.pos 1 = true := by decide

/-- The bits of document 1 only. -/
def explBits : BitVector.BV := match BitVector.set (BitVector.newCapa 5) 1 with | .ok bv => bv | _ => BitVector.newCapa 5

/-- **C82, filtered queries.** The filter of a filtered query is left out of explanations: document 0 is not given by the
search, and explained with a positive value. -/
theorem c82_filter_left_out :
    searchFilteredQuery ratX explIx explBits (.leaf (.term 0) 1) = .ok [(1, 1 / 2)] ∧
    explainFiltered ratX explIx explBits (.leaf (.term 0) 1) 1 = .ok (1 / 2) ∧
    explainFiltered ratX explIx explBits (.leaf (.term 0) 1) 0 = .ok 2 := by
  decide +kernel

/-- **C82, fields the index does not have.** A clause over such a field (a phrase, say) has no scorer, and the score leaves
it out of the coordination factor; the explanation counts it. -/
theorem c82_absent_field :
    searchQuery ratX explIx (.bool 1 [(.should, .leaf (.term 0) 2), (.should, .leaf (.absent 1) 1)]) =
      .ok [(0, 1 / 10), (1, 1 / 40), (3, 2)] ∧
    explain ratX explIx (.bool 1 [(.should, .leaf (.term 0) 2), (.should, .leaf (.absent 1) 1)]) 3 = .ok 1 := by
  decide +kernel

/-- The index of `explIx` with term 1 in a field without norms (fake_norms, c/src/index.c 3995–3999, are zero). -/
def noNormIx : EIx Rat Nat := { explIx with norm := fun l _ => if l = 1 then 0 else 1 }

/-- **C82, fields without norms.** A required clause that scores zero is taken for one that does not match. -/
theorem c82_no_norms :
    searchQuery ratX noNormIx (.bool 1 [(.must, .leaf (.term 0) 2), (.must, .leaf (.term 1) 1)]) = .ok [(1, 1 / 20), (3, 2)] ∧
    explain ratX noNormIx (.bool 1 [(.must, .leaf (.term 0) 2), (.must, .leaf (.term 1) 1)]) 3 = .ok 0 := by
  decide +kernel

/-- **C82, documents out of range.** Explaining a term query for a document number the index does not have reads outside
the norms. -/
theorem c82_out_of_range (X : XArith S) (ix : EIx S L) (hs : ∀ l, Scorer.Sorted (ix.postings l)) (l : L) (boost : S) (d : Int)
    (hd : d < 0 ∨ (ix.maxDoc : Int) ≤ d) : explain X ix (.leaf (.term l) boost) d = .ub := by
  unfold explain
  rw [qWeight, settle, sumSq, normalize, explainW, leafExplain, twExplain, tscExplain_spec (hs l), Res.ok_bind, normAt,
    if_neg (by omega)]
  rfl
example : ∀ l, Scorer.Sorted (explIx.postings l) := fun l => ⟨explIx_fine.sorted l, fun e he => (explIx_fine.held l e he).1⟩

#print axioms c82_explained_partial
#print axioms c82_constant_matches_all
#print axioms c82_constant_prohibited
#print axioms c82_constant_prohibited_found
#print axioms c82_filter_left_out
#print axioms c82_absent_field
#print axioms c82_no_norms
#print axioms c82_out_of_range
end Ferret.Props
