import Verif.Lemmas.Combine

/-!
C91: searching several searchers with a MultiSearcher finds in each of them what searching it alone finds.

The code departs from the English property: with a pattern (prefix, wildcard, fuzzy) in a clause that prohibits, the query of one searcher finds in another what
that one excludes; scores depend on which terms the other searchers have; and a query of more than 1024 optional clauses is refused.
-/

namespace Ferret.Props
open Ferret.Spec Ferret.Comb

variable {L K : Type}

/-- **What is found.** For every query whose patterns are under no clause that prohibits (or under an even number of them), the weight that a MultiSearcher makes finds in
each of its searchers the documents that the query finds in it alone. Searchers have, for a pattern, terms that fit it, and among
them all that occur in their documents; queries that are said to be equal find the same. The only error is that there are too many
clauses. Missing: other queries (false, see below), and that there is no error. -/
theorem c91_found_partial (same : CQ L K → CQ L K → Bool) (subs : List (Sub L K)) (fits : K → L → Bool) (hne : subs ≠ [])
    (hrefl : ∀ q, same q q = true) (hsame : ∀ a b, same a b = true → ∀ s ∈ subs, ∀ d, s.finds a d = s.finds b d)
    (honly : ∀ s ∈ subs, ∀ k, ∀ l ∈ s.expand k, fits k l = true) (hall : ∀ s ∈ subs, ∀ k l d, fits k l = true → s.has l d = true → l ∈ s.expand k)
    (q : CQ L K) (hq : onlyWidens true q = true) (n : Nat) (hn : nesting q + 1 < n) :
    weigh same (subs.map (·.expand)) n q = .raise .state ∨
    ∃ w, weigh same (subs.map (·.expand)) n q = .ok w ∧ ∀ s ∈ subs, ∀ d, s.finds w d = s.finds q d := by
  rcases weigh_done (subs := subs.map (·.expand)) hrefl (by simpa using hne) n q hn with ⟨w, hw⟩ | h
  · right
    refine ⟨w, hw, ?_⟩
    intro s hs d
    refine weigh_sat same _ s.has s.expand s.live d (fun a b hab => hsame a b hab s hs d) (List.mem_map.2 ⟨s, hs, rfl⟩) ?_ hq hw
    intro e' he' k h
    obtain ⟨s', hs', rfl⟩ := List.mem_map.1 he'
    obtain ⟨l, hl, hh⟩ := List.any_eq_true.1 h
    exact List.any_eq_true.2 ⟨l, hall s hs k l d (honly s' hs' k l hl) hh, hh⟩
  · exact .inl h

/-- **Nothing is missed.** Whatever the query, a document that it finds in a searcher alone is found by the query a MultiSearcher rewrites it to. -/
theorem c91_none_missed (same : CQ L K → CQ L K → Bool) (subs : List (Sub L K)) (hsame : ∀ a b, same a b = true → ∀ s ∈ subs, ∀ d, s.finds a d = s.finds b d)
    (q r : CQ L K) (h : mseaRewrite same (subs.map (·.expand)) q = .ok r) (s : Sub L K) (hs : s ∈ subs) (d : Int) (hd : s.finds q d = true) : s.finds r d = true := by
  have := sat_msea same (subs.map (·.expand)) s.has s.expand s.live d (fun a b hab => hsame a b hab s hs d) h
  show sat (leafFinds s.has s.expand) s.live d r = true
  rw [this, List.any_eq_true]
  exact ⟨s.expand, List.mem_map.2 ⟨s, hs, rfl⟩, hd⟩

/-- **Document frequencies** of a MultiSearcher are those of all documents of its searchers together. -/
theorem c91_doc_freq {D : Type} (p : D → Bool) (cols : List (List D)) : mseaDocFreq (cols.map fun c => c.countP p) = cols.flatten.countP p := by
  have : ∀ (l : List Nat) (a : Nat), l.foldl (· + ·) a = a + l.sum := by
    intro l
    induction l with
    | nil => simp
    | cons x l ih => intro a; rw [List.foldl_cons, ih, List.sum_cons]; omega
  unfold mseaDocFreq
  rw [this, Nat.zero_add, List.countP_flatten]

/-! ### A case -/

section
variable {L K : Type} [DecidableEq L] [DecidableEq K]

def beqLeaf : CLeaf L K → CLeaf L K → Bool
  | .own a, .own b => a == b
  | .many a, .many b => a == b
  | .pattern a, .pattern b => a == b
  | _, _ => false

mutual
/-- Queries with the same structure. -/
def beqQ : CQ L K → CQ L K → Bool
  | .leaf a, .leaf b => beqLeaf a b
  | .all, .all => true
  | .bool c cs, .bool c' cs' => c == c' && beqL cs cs'
  | _, _ => false
def beqL : List (Occur × CQ L K) → List (Occur × CQ L K) → Bool
  | [], [] => true
  | (o, q) :: cs, (o', q') :: cs' => decide (o = o') && beqQ q q' && beqL cs cs'
  | _, _ => false
end

theorem beqLeaf_refl (l : CLeaf L K) : beqLeaf l l = true := by cases l <;> simp [beqLeaf]

theorem beqLeaf_eq {a b : CLeaf L K} (h : beqLeaf a b = true) : a = b := by
  cases a <;> cases b <;> simp_all [beqLeaf]

theorem beqQ_refl : ∀ q : CQ L K, beqQ q q = true := by
  apply CQ.ind
  · intro l; rw [beqQ]; exact beqLeaf_refl l
  · rfl
  · intro c cs ih
    rw [beqQ, beq_self_eq_true, Bool.true_and]
    induction cs with
    | nil => rfl
    | cons x cs ih2 =>
      obtain ⟨o, q⟩ := x
      rw [beqL, ih (o, q) (by simp), ih2 (fun x hx => ih x (List.mem_cons_of_mem _ hx))]
      simp

theorem beqQ_eq : ∀ a b : CQ L K, beqQ a b = true → a = b := by
  apply CQ.ind (P := fun a => ∀ b, beqQ a b = true → a = b)
  · intro l b h
    cases b with
    | leaf l' => rw [beqQ] at h; rw [beqLeaf_eq h]
    | all => simp [beqQ] at h
    | bool c cs => simp [beqQ] at h
  · intro b h
    cases b with
    | leaf l' => simp [beqQ] at h
    | all => rfl
    | bool c cs => simp [beqQ] at h
  · intro c cs ih b h
    cases b with
    | leaf l' => simp [beqQ] at h
    | all => simp [beqQ] at h
    | bool c' cs' =>
      rw [beqQ, Bool.and_eq_true, beq_iff_eq] at h
      obtain ⟨rfl, h⟩ := h
      have : ∀ (cs cs' : List (Occur × CQ L K)), (∀ x ∈ cs, ∀ b, beqQ x.2 b = true → x.2 = b) → beqL cs cs' = true → cs = cs' := by
        intro cs
        induction cs with
        | nil =>
          intro cs' _ h
          cases cs' with
          | nil => rfl
          | cons y cs' => simp [beqL] at h
        | cons x cs ih2 =>
          obtain ⟨o, q⟩ := x
          intro cs' ih h
          cases cs' with
          | nil => simp [beqL] at h
          | cons y cs' =>
            obtain ⟨o', q'⟩ := y
            rw [beqL, Bool.and_eq_true, Bool.and_eq_true, decide_eq_true_eq] at h
            obtain ⟨⟨rfl, h1⟩, h2⟩ := h
            rw [show q = q' from ih (o, q) (by simp) q' h1, ih2 cs' (fun x hx => ih x (List.mem_cons_of_mem _ hx)) h2]
      rw [this cs cs' ih h]
end

/-- Two searchers with one document each: words 0 and 1, and words 0 and 2. The pattern fits words 1 and 2. -/
def subOne : Sub Nat Nat := ⟨fun l d => (l == 0 || l == 1) && d == 0, fun d => d == 0, fun _ => [1]⟩
def subTwo : Sub Nat Nat := ⟨fun l d => (l == 0 || l == 2) && d == 0, fun d => d == 0, fun _ => [2]⟩

/-- Word 0 and, if possible, the pattern, but not both word 0 and word 3. -/
def widening : CQ Nat Nat := .bool false [(.must, .leaf (.own 0)), (.should, .leaf (.pattern 0)), (.mustNot, .bool false [(.must, .leaf (.own 0)), (.must, .leaf (.own 3))])]

example : (∀ q : CQ Nat Nat, beqQ q q = true) ∧ (∀ a b : CQ Nat Nat, beqQ a b = true → ∀ s ∈ [subOne, subTwo], ∀ d, s.finds a d = s.finds b d) ∧
    (∀ s ∈ [subOne, subTwo], ∀ k, ∀ l ∈ s.expand k, (fun (_ l : Nat) => l == 1 || l == 2) k l = true) ∧
    (∀ s ∈ [subOne, subTwo], ∀ k l d, (fun (_ l : Nat) => l == 1 || l == 2) k l = true → s.has l d = true → l ∈ s.expand k) ∧
    onlyWidens true widening = true ∧ nesting widening + 1 < 4 := by
  refine ⟨beqQ_refl, fun a b h s _ d => by rw [beqQ_eq a b h], ?_, ?_, by decide, by decide⟩
  · intro s hs k l hl
    simp only [List.mem_cons, List.not_mem_nil, or_false] at hs
    rcases hs with rfl | rfl <;> simp_all [subOne, subTwo]
  · intro s hs k l d h1 h2
    simp only [List.mem_cons, List.not_mem_nil, or_false] at hs
    rcases hs with rfl | rfl <;> simp_all [subOne, subTwo] <;> omega

/-- What it is made to. -/
example : (match weigh beqQ [subOne.expand, subTwo.expand] 4 widening with
    | .ok w => beqQ w (.bool true [(.should, .bool false [(.must, .leaf (.own 0)), (.should, .leaf (.many [1])), (.mustNot, .bool false [(.must, .leaf (.own 0)), (.must, .leaf (.own 3))])]),
        (.should, .bool false [(.must, .leaf (.own 0)), (.should, .leaf (.many [2])), (.mustNot, .bool false [(.must, .leaf (.own 0)), (.must, .leaf (.own 3))])])])
    | _ => false) = true := by decide +kernel

/-! ### Where it fails -/

/-- **Excluded documents are found.** Word 0 without words of the pattern: neither searcher has such a document, and alone neither finds one; the
MultiSearcher finds both documents. -/
def excluding : CQ Nat Nat := .bool false [(.must, .leaf (.own 0)), (.mustNot, .leaf (.pattern 0))]

theorem c91_excluded_found : subOne.finds excluding 0 = false ∧ subTwo.finds excluding 0 = false ∧
    (match weigh beqQ [subOne.expand, subTwo.expand] 4 excluding with
      | .ok w => subOne.finds w 0 && subTwo.finds w 0
      | _ => false) = true := by decide +kernel

/-- Scores as numbers, without coordination: every word that is found counts one. -/
def countScore (s : Sub Nat Nat) (q : CQ Nat Nat) (d : Int) : Nat :=
  (plainQ q).score ⟨0, (· + ·), (· * ·), fun _ _ => 1⟩ (leafFinds s.has s.expand) s.live
    (fun l d => match l with
      | .own l => (s.has l d).toNat
      | .many ls => (ls.map fun l => (s.has l d).toNat).sum
      | .pattern k => ((s.expand k).map fun l => (s.has l d).toNat).sum) 1 d

/-- **Scores depend on the terms of others.** Word 0 and if possible the pattern: with itself beside it the first searcher gives its document two, with the second one, which
has another term for the pattern, three: word 0 is counted twice. -/
def preferring : CQ Nat Nat := .bool true [(.must, .leaf (.own 0)), (.should, .leaf (.pattern 0))]

theorem c91_scores_differ :
    (match weigh beqQ [subOne.expand, subOne.expand] 4 preferring with | .ok w => countScore subOne w 0 == 2 | _ => false) = true ∧
    (match weigh beqQ [subOne.expand, subTwo.expand] 4 preferring with | .ok w => countScore subOne w 0 == 3 | _ => false) = true := by decide +kernel

/-- **Clauses are dropped.** Word 0 twice, without coordination: a searcher alone counts it twice, a MultiSearcher of only that searcher once. -/
theorem c91_clause_dropped :
    countScore subOne (rewrite subOne.expand (.bool true [(.should, .leaf (.own 0)), (.should, .leaf (.own 0))])) 0 = 2 ∧
    (match weigh beqQ [subOne.expand] 4 (.bool true [(.should, .leaf (.own 0)), (.should, .leaf (.own 0))]) with | .ok w => countScore subOne w 0 == 1 | _ => false) = true := by
  decide +kernel

/-- **Many clauses are refused.** A query without coordination of more than 1024 optional words, all different, which a searcher alone leaves as it is, raises an
error with any MultiSearcher. -/
theorem c91_refused (same : CQ L K → CQ L K → Bool) (hsame : ∀ l l', same (.leaf (.own l)) (.leaf (.own l')) = true ↔ l = l')
    (subs : List (K → List L)) (hne : subs ≠ []) (ls : List L) (hnd : ls.Nodup) (hlen : 1024 < ls.length) (n : Nat) :
    (∀ e : K → List L, rewrite e (.bool true (ls.map fun l => (.should, .leaf (.own l)))) = .bool true (ls.map fun l => (.should, .leaf (.own l)))) ∧
    weigh same subs (n + 1) (.bool true (ls.map fun l => (.should, .leaf (.own l)))) = .raise .state := by
  have hrw : ∀ e : K → List L, rewrite e (.bool true (ls.map fun l => (.should, .leaf (.own l)))) = .bool true (ls.map fun l => (.should, .leaf (.own l))) := by
    intro e
    rcases rewrite_bool e true (ls.map fun l => (Occur.should, (CQ.leaf (CLeaf.own l) : CQ L K))) with ⟨o, q, h, _, _⟩ | ⟨_, h, _⟩ | ⟨_, h⟩
    · have := congrArg List.length h
      simp at this
      omega
    · cases ls with
      | nil => simp at hlen
      | cons a l => have := h (.should, .leaf (.own a)) (by simp); simp at this
    · rw [h, rewriteL_eq, List.map_map]
      simp [Function.comp_def, rewrite]
  refine ⟨hrw, ?_⟩
  let P : List (CQ L K) := ls.map fun l => .leaf (.own l)
  have hparts : parts (.bool true (ls.map fun l => (Occur.should, (CQ.leaf (CLeaf.own l) : CQ L K)))) = P := by
    show (if _ then _ else _) = _
    rw [if_pos (by simp), List.map_map]
    rfl
  -- the words of the list are all added
  have hadd : ∀ (a b : List L), (a ++ b).Nodup → (b.map fun l => (CQ.leaf (CLeaf.own l) : CQ L K)).foldl (hsAdd same) (a.map fun l => .leaf (.own l)) = (a ++ b).map fun l => .leaf (.own l) := by
    intro a b
    induction b generalizing a with
    | nil => intro _; simp
    | cons x b ih =>
      intro hn
      rw [List.map_cons, List.foldl_cons]
      have hx : hsAdd same (a.map fun l => .leaf (.own l)) (.leaf (.own x)) = (a ++ [x]).map fun l => (CQ.leaf (CLeaf.own l) : CQ L K) := by
        unfold hsAdd
        rw [if_neg]
        · simp
        · intro h
          obtain ⟨y, hy, hs⟩ := List.any_eq_true.1 h
          obtain ⟨z, hz, rfl⟩ := List.mem_map.1 hy
          rw [hsame] at hs
          rw [List.nodup_append] at hn
          exact hn.2.2 z hz x (by simp) hs
      rw [hx, ih (a ++ [x]) (by simpa using hn)]
      simp
  have hP : P.foldl (hsAdd same) [] = P := by simpa using hadd [] ls (by simpa using hnd)
  have hknown : ∀ (m : Nat), ((List.replicate m P).flatten).foldl (hsAdd same) P = P := by
    intro m
    apply foldl_known
    intro q hq
    obtain ⟨p, hp, hq⟩ := List.mem_flatten.1 hq
    rw [List.eq_of_mem_replicate hp] at hq
    obtain ⟨l, hl, rfl⟩ := List.mem_map.1 hq
    exact List.any_eq_true.2 ⟨_, List.mem_map.2 ⟨l, hl, rfl⟩, (hsame l l).2 rfl⟩
  have hu : uniques same (subs.map fun e => rewrite e (.bool true (ls.map fun l => (.should, .leaf (.own l))))) = P := by
    unfold uniques
    cases subs with
    | nil => exact absurd rfl hne
    | cons e subs =>
      have : ((e :: subs).map fun e => rewrite e (.bool true (ls.map fun l => (.should, .leaf (.own l))))).flatMap parts = P ++ (List.replicate subs.length P).flatten := by
        rw [List.map_cons, List.flatMap_cons, hrw, hparts]
        congr 1
        induction subs with
        | nil => rfl
        | cons e' subs ih =>
          rw [List.map_cons, List.flatMap_cons, hrw, hparts, ih (by simp)]
          rfl
      rw [this, List.foldl_append, hP, hknown]
  have hm : mseaRewrite same subs (.bool true (ls.map fun l => (.should, .leaf (.own l)))) = .raise .state := by
    unfold mseaRewrite combine
    rw [hu]
    have hl : P.length = ls.length := List.length_map _
    have hw : ∀ u : List (CQ L K), 1024 < u.length → wrap u = .raise .state := by
      intro u h
      unfold wrap
      split
      · simp at h
      · exact if_pos h
    exact hw P (by omega)
  rw [weigh, hm]
  rfl

example : (∀ l l' : Nat, beqQ (.leaf (.own l) : CQ Nat Nat) (.leaf (.own l')) = true ↔ l = l') ∧ (List.range 1025).Nodup ∧ 1024 < (List.range 1025).length := by
  refine ⟨fun l l' => by simp [beqQ, beqLeaf], List.nodup_range, by rw [List.length_range]; omega⟩

#print axioms c91_found_partial
#print axioms c91_none_missed
#print axioms c91_doc_freq
#print axioms c91_excluded_found
#print axioms c91_scores_differ
#print axioms c91_clause_dropped
#print axioms c91_refused
end Ferret.Props
