import Verif.Spec.Search
import Verif.Lemmas.BitVectorOps
import Verif.Props.C07

namespace Ferret.Search
open Ferret.Spec Ferret.PQ Ferret.Props

variable {S : Type}

theorem hitLt_strictWeak {lt : S → S → Bool} (h : StrictWeak lt) : StrictWeak (hitLt lt) := by
  constructor
  · intro a b hab
    unfold hitLt at *
    cases h1 : lt a.score b.score <;> cases h2 : lt b.score a.score <;> simp [h1, h2] at hab ⊢
    · omega
    · have := h.asymm _ _ h1; rw [h2] at this; simp at this
  · intro a b c hab hbc
    unfold hitLt at *
    have k1 := h.negTrans a.score b.score c.score
    have k2 := h.negTrans c.score b.score a.score
    have k3 := h.negTrans b.score a.score c.score
    have k4 := h.negTrans a.score c.score b.score
    have k5 := h.negTrans b.score c.score a.score
    have k6 := h.negTrans c.score a.score b.score
    have a1 := h.asymm a.score b.score
    have a2 := h.asymm b.score c.score
    have a3 := h.asymm a.score c.score
    cases h1 : lt a.score b.score <;> cases h2 : lt b.score a.score <;>
    cases h3 : lt b.score c.score <;> cases h4 : lt c.score b.score <;>
    cases h5 : lt a.score c.score <;> cases h6 : lt c.score a.score <;>
    simp [h1, h2, h3, h4, h5, h6] at hab hbc k1 k2 k3 k4 k5 k6 a1 a2 a3 ⊢ <;> omega

theorem rankedBefore_eq {lt : S → S → Bool} (h : StrictWeak lt) (a b : Hit S) :
    rankedBefore lt a b = !hitLt lt a b := by
  unfold rankedBefore hitLt
  have a1 := h.asymm a.score b.score
  cases h1 : lt a.score b.score <;> cases h2 : lt b.score a.score <;> simp [h1, h2] at a1 ⊢
  rw [← decide_not]; congr 1; simp

theorem rankedBefore_trans {lt : S → S → Bool} (h : StrictWeak lt) (a b c : Hit S)
    (h1 : rankedBefore lt a b = true) (h2 : rankedBefore lt b c = true) : rankedBefore lt a c = true := by
  rw [rankedBefore_eq h] at *
  simp only [Bool.not_eq_true'] at *
  exact (hitLt_strictWeak h).negTrans _ _ _ h1 h2

theorem rankedBefore_total {lt : S → S → Bool} (h : StrictWeak lt) (a b : Hit S) :
    (rankedBefore lt a b || rankedBefore lt b a) = true := by
  rw [rankedBefore_eq h, rankedBefore_eq h]
  cases h1 : hitLt lt a b with
  | false => rfl
  | true => rw [(hitLt_strictWeak h).asymm _ _ h1]; rfl

theorem rankedBefore_antisymm_doc {lt : S → S → Bool} (h : StrictWeak lt) (a b : Hit S)
    (h1 : rankedBefore lt a b = true) (h2 : rankedBefore lt b a = true) : a.doc = b.doc := by
  unfold rankedBefore at *
  have a1 := h.asymm a.score b.score
  cases h3 : lt a.score b.score <;> cases h4 : lt b.score a.score <;> simp [h3, h4] at h1 h2 a1
  omega

/-- Distinct documents. -/
def DistinctDocs (xs : List (Hit S)) : Prop := xs.Pairwise (fun a b => a.doc ≠ b.doc)

theorem DistinctDocs.inj {xs : List (Hit S)} (h : DistinctDocs xs) {a b : Hit S} (ha : a ∈ xs) (hb : b ∈ xs)
    (hd : a.doc = b.doc) : a = b := by
  induction xs with
  | nil => simp at ha
  | cons x xs ih =>
    have h' := List.pairwise_cons.mp h
    rcases List.mem_cons.mp ha with rfl | ha'
    · rcases List.mem_cons.mp hb with rfl | hb'
      · rfl
      · exact absurd hd (h'.1 b hb')
    · rcases List.mem_cons.mp hb with rfl | hb'
      · exact absurd hd.symm (h'.1 a ha')
      · exact ih h'.2 ha' hb'

/-- The collected elements in descending order are the first `k` in order. -/
theorem greatest_is_sorted {α : Type} {lt : α → α → Bool} (hlt : StrictWeak lt) {k : Nat} {xs out : List α}
    (hd : ∀ a ∈ xs, ∀ b ∈ xs, lt a b = false → lt b a = false → a = b) (h : GreatestAsc lt k xs out) :
    out.reverse = (xs.mergeSort fun a b => !lt a b).take k := by
  obtain ⟨hs, hl, rest, hp, hr⟩ := h
  have htrans : ∀ a b c : α, (!lt a b) = true → (!lt b c) = true → (!lt a c) = true := by
    intro a b c h1 h2
    simp only [Bool.not_eq_true'] at *
    exact hlt.negTrans _ _ _ h1 h2
  have htotal : ∀ a b : α, (!lt a b || !lt b a) = true := by
    intro a b
    cases h1 : lt a b with
    | false => rfl
    | true => rw [hlt.asymm _ _ h1]; rfl
  let R := rest.mergeSort fun a b => !lt a b
  have hR : R.Perm rest := List.mergeSort_perm _ _
  have hsorted : (out.reverse ++ R).Pairwise (fun a b => (!lt a b) = true) := by
    rw [List.pairwise_append]
    refine ⟨?_, List.pairwise_mergeSort htrans htotal rest, ?_⟩
    · rw [List.pairwise_reverse]
      exact hs.imp (fun h => by simpa using h)
    · intro a ha b hb
      simpa using hr a (List.mem_reverse.mp ha) b (hR.mem_iff.mp hb)
  have hperm : (out.reverse ++ R).Perm (xs.mergeSort fun a b => !lt a b) :=
    ((List.Perm.append (List.reverse_perm out) hR).trans hp).trans (List.mergeSort_perm _ _).symm
  have heq : out.reverse ++ R = xs.mergeSort fun a b => !lt a b :=
    hperm.eq_of_pairwise (fun a b ha hb h1 h2 => hd a
        (by exact (List.mergeSort_perm _ _).mem_iff.mp (hperm.mem_iff.mp ha)) b
        (by exact (List.mergeSort_perm _ _).mem_iff.mp hb) (by simpa using h1) (by simpa using h2))
      hsorted (List.pairwise_mergeSort htrans htotal xs)
  have hlen := hp.length_eq
  simp only [List.length_append] at hlen
  rw [← heq]
  by_cases hk : k ≤ xs.length
  · rw [List.take_left' (by rw [List.length_reverse]; omega)]
  · have : R = [] := List.length_eq_zero_iff.mp (by rw [hR.length_eq]; omega)
    rw [this, List.append_nil, List.take_of_length_le (by rw [List.length_reverse]; omega)]

theorem popN_of_drain {α : Type} {lt : α → α → Bool} {q : PQ α} {out : List α} (d : PqDrain lt q out) :
    ∀ n, n ≤ out.length → popN lt n q = .ok (out.take n) := by
  induction d with
  | done h => intro n hn; simp at hn; subst hn; rfl
  | step h _ ih =>
    intro n hn
    cases n with
    | zero => rfl
    | succ n =>
      simp only [List.length_cons, Nat.add_le_add_iff_right] at hn
      simp only [popN, h, Res.ok_bind, ih n hn, List.take_succ_cons]

/-- Queue state after collecting `seen`: the kept elements are greatest, the rest dropped. -/
structure Kept {α : Type} (lt : α → α → Bool) (k : Nat) (seen : List α) (q : PQ α) : Prop where
  inv : Inv lt q
  capa : q.capa = k
  rest : ∃ rest, (q.heap ++ rest).Perm seen ∧ (∀ a ∈ q.heap, ∀ b ∈ rest, lt a b = false)
  len : q.heap.length = min k seen.length

theorem kept_new {α : Type} (lt : α → α → Bool) (k : Nat) : Kept lt k [] (PQ.new k) :=
  ⟨inv_new lt k, rfl, ⟨[], by simp [PQ.new], by simp [PQ.new]⟩, by simp [PQ.new]⟩

theorem Kept.insert {α : Type} {lt : α → α → Bool} (hlt : StrictWeak lt) {k : Nat} {seen : List α} {q : PQ α}
    (h : Kept lt k seen q) (x : α) : ∃ q' i o, PQ.insert lt q x = .ok (q', i, o) ∧ Kept lt k (seen ++ [x]) q' := by
  obtain ⟨rest, hp, hr⟩ := h.rest
  obtain ⟨q', rest', e, hi, hc, hp', hr', hl'⟩ := pqInsertAll_spec hlt [x] q seen rest h.inv hp hr (by rw [h.capa]; exact h.len)
  simp only [pqInsertAll] at e
  rw [Res.bind_eq_ok] at e
  obtain ⟨⟨q1, i, o⟩, e1, e2⟩ := e
  simp only [Res.ok.injEq] at e2
  subst e2
  exact ⟨_, i, o, e1, hi, by rw [hc, h.capa], ⟨rest', hp', hr'⟩, by rw [hl', h.capa]⟩

theorem Kept.greatest {α : Type} {lt : α → α → Bool} (hlt : StrictWeak lt) {k : Nat} {seen : List α} {q : PQ α}
    (h : Kept lt k seen q) : ∃ out, PqDrain lt q out ∧ GreatestAsc lt k seen out ∧ out.length = q.heap.length := by
  obtain ⟨rest, hp, hr⟩ := h.rest
  obtain ⟨out, d, p, s⟩ := pqDrain_spec hlt q.heap.length q rfl h.inv
  refine ⟨out, d, ⟨s, by rw [p.length_eq, h.len], rest, (p.append_right rest).trans hp, ?_⟩, p.length_eq⟩
  intro a ha b hb; exact hr a (p.mem_iff.mp ha) b hb

/-- The page read off a queue that kept the first `k` of the ranking of `seen`. -/
theorem pageBy_spec {α : Type} {lt : α → α → Bool} (hlt : StrictWeak lt) {k : Nat} {seen : List α} {q : PQ α}
    (h : Kept lt k seen q) (hd : ∀ a ∈ seen, ∀ b ∈ seen, lt a b = false → lt b a = false → a = b) (first num : Nat) (hk : k = first + num ∨ (seen.length ≤ k ∧ seen.length ≤ first + num)) :
    pageBy lt q first num = .ok (((seen.mergeSort fun a b => !lt a b).drop first).take num) := by
  obtain ⟨out, d, g, hol⟩ := h.greatest hlt
  have hrank := greatest_is_sorted hlt hd g
  have hlenR : (seen.mergeSort fun a b => !lt a b).length = seen.length := List.length_mergeSort _
  have hql := h.len
  unfold pageBy
  by_cases hf : q.heap.length > first
  · rw [if_pos hf]
    simp only []
    rw [popN_of_drain d _ (by split <;> omega), Res.ok_bind]
    congr 1
    -- the first n ascending = the last n of the kept ranks
    have h1 : ∀ n, n ≤ out.length → (out.take n).reverse = (out.reverse).drop (out.length - n) := by
      intro n hn
      rw [List.reverse_take]
    rw [h1 _ (by split <;> omega), hrank, List.drop_take]
    by_cases hn : q.heap.length - first < num
    · rw [if_pos hn]
      rw [show out.length - (q.heap.length - first) = first by omega]
      -- here everything seen was kept
      have hk2 : seen.length ≤ k := by omega
      have hsl : q.heap.length = seen.length := by omega
      rw [List.take_of_length_le (by rw [List.length_drop, hlenR]; omega), List.take_of_length_le (by rw [List.length_drop, hlenR]; omega)]
    · rw [if_neg hn]
      rcases hk with hk | ⟨hk1, hk2⟩
      · rw [show out.length - num = first by omega, show k - first = num by omega]
      · rw [show out.length - num = first by omega, List.take_of_length_le (by rw [List.length_drop, hlenR]; omega),
          List.take_of_length_le (by rw [List.length_drop, hlenR]; omega)]
  · rw [if_neg hf]
    have : seen.length ≤ first ∨ num = 0 := by omega
    rcases this with h2 | h2
    · rw [List.drop_of_length_le (by rw [hlenR]; exact h2), List.take_nil]
    · subst h2; rw [List.take_zero]

/-- The page of the ranking. -/
theorem page_spec {lt : S → S → Bool} (hlt : StrictWeak lt) {k : Nat} {seen : List (Hit S)} {q : PQ (Hit S)}
    (h : Kept (hitLt lt) k seen q) (hd : DistinctDocs seen) (first num : Nat) (hk : k = first + num ∨ (seen.length ≤ k ∧ seen.length ≤ first + num)) :
    page lt q first num = .ok (((ranking lt seen).drop first).take num) := by
  unfold page
  rw [pageBy_spec (hitLt_strictWeak hlt) h ?_ first num hk]
  · unfold ranking
    rw [show (fun a b => !hitLt lt a b) = rankedBefore lt from by funext a b; rw [rankedBefore_eq hlt]]
  · intro a ha b hb h1 h2
    exact hd.inj ha hb (rankedBefore_antisymm_doc hlt a b (by rw [rankedBefore_eq hlt, h1]; rfl) (by rw [rankedBefore_eq hlt, h2]; rfl))

theorem collect_spec {lt : S → S → Bool} (hlt : StrictWeak lt) (bits : Option BitVector.BV) (pass : Nat → Bool)
    (hb : FilterBits bits pass) (pf : Option (Nat → S → Option S)) (hits : List (Hit S)) :
    ∀ (c : Coll S) (k : Nat) (seen : List (Hit S)), Kept (hitLt lt) k seen c.hq →
      ∃ c', collect lt bits pf c hits = .ok c' ∧ Kept (hitLt lt) k (seen ++ accepted pass (adjustOf pf) hits) c'.hq ∧
        c'.total = c.total + (accepted pass (adjustOf pf) hits).length ∧
        c'.maxScore = bestScore lt c.maxScore (accepted pass (adjustOf pf) hits) := by
  induction hits with
  | nil => intro c k seen h; exact ⟨c, rfl, by simpa [accepted] using h, by simp [accepted], rfl⟩
  | cons x xs ih =>
    intro c k seen h
    have hpass : passBits bits x.doc = .ok (pass x.doc) := by
      cases bits with
      | none => simp only [FilterBits] at hb; rw [hb]; rfl
      | some bv => exact hb x.doc
    have hadj : postFilter pf x.doc x.score = adjustOf pf x.doc x.score := by
      cases pf <;> rfl
    have hstep : ∃ c1, collect1 lt bits pf c x = .ok c1 ∧ Kept (hitLt lt) k (seen ++ accepted pass (adjustOf pf) [x]) c1.hq ∧
        c1.total = c.total + (accepted pass (adjustOf pf) [x]).length ∧
        c1.maxScore = bestScore lt c.maxScore (accepted pass (adjustOf pf) [x]) := by
      unfold collect1
      simp only []
      rw [hpass, hadj, Res.ok_bind]
      by_cases hp : pass x.doc = true
      · rw [hp]
        simp only [Bool.not_true, Bool.false_eq_true, if_false]
        cases ha : adjustOf pf x.doc x.score with
        | none =>
          refine ⟨c, rfl, ?_⟩
          simp [accepted, hp, ha, bestScore]; exact h
        | some sc =>
          obtain ⟨q', i, o, e1, e2⟩ := h.insert (hitLt_strictWeak hlt) ⟨x.doc, sc⟩
          simp only [e1, Res.ok_bind]
          refine ⟨_, rfl, ?_⟩
          simp [accepted, hp, ha, bestScore]; exact e2
      · have hp' : pass x.doc = false := by simpa using hp
        rw [hp']
        simp only [Bool.not_false, if_true]
        refine ⟨c, rfl, ?_⟩
        simp [accepted, hp', bestScore]; exact h
    obtain ⟨c1, e1, k1, t1, m1⟩ := hstep
    obtain ⟨c2, e2, k2, t2, m2⟩ := ih c1 k _ k1
    have hcons : accepted pass (adjustOf pf) (x :: xs) = accepted pass (adjustOf pf) [x] ++ accepted pass (adjustOf pf) xs := by
      unfold accepted; rw [← List.filterMap_append]; rfl
    refine ⟨c2, by simp only [collect, e1, Res.ok_bind]; exact e2, ?_, ?_, ?_⟩
    · rw [hcons, ← List.append_assoc]; exact k2
    · rw [t2, t1, hcons, List.length_append]; omega
    · rw [m2, m1, hcons]; unfold bestScore; rw [List.foldl_append]

theorem accepted_distinct {pass : Nat → Bool} {adj : Nat → S → Option S} {hits : List (Hit S)} (h : DistinctDocs hits) :
    DistinctDocs (accepted pass adj hits) := by
  induction hits with
  | nil => exact List.Pairwise.nil
  | cons x xs ih =>
    have h' := List.pairwise_cons.mp h
    unfold accepted at *
    rw [List.filterMap_cons]
    split
    · exact ih h'.2
    · rename_i b hb
      refine List.pairwise_cons.mpr ⟨?_, ih h'.2⟩
      intro y hy
      rw [List.mem_filterMap] at hy
      obtain ⟨z, hz, hz2⟩ := hy
      have hdoc : ∀ (u v : Hit S), (if pass u.doc = true then (adj u.doc u.score).map (fun s => (⟨u.doc, s⟩ : Hit S)) else none) = some v → v.doc = u.doc := by
        intro u v huv
        split at huv
        · rw [Option.map_eq_some_iff] at huv
          obtain ⟨_, _, rfl⟩ := huv; rfl
        · simp at huv
      rw [hdoc x b hb, hdoc z y hz2]
      exact h'.1 z hz

end Ferret.Search
