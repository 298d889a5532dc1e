import Verif.Lemmas.PriorityQueue
import Verif.Spec.Bag

/-! C07: the bounded priority queue keeps the greatest k elements and pops in order. -/

namespace Ferret.Props
open Ferret.PQ Ferret.Spec

variable {α : Type}

/-- Insert every element of a list. -/
def pqInsertAll (lt : α → α → Bool) (q : PQ α) : List α → Res (PQ α)
  | [] => .ok q
  | x :: xs => PQ.insert lt q x >>= fun r => pqInsertAll lt r.1 xs

/-- `PqDrain lt q out`: popping `q` until it answers NULL yields `out`. -/
inductive PqDrain (lt : α → α → Bool) : PQ α → List α → Prop
  | done {q q'} : PQ.pop lt q = .ok (none, q') → PqDrain lt q []
  | step {q q' t l} : PQ.pop lt q = .ok (some t, q') → PqDrain lt q' l → PqDrain lt q (t :: l)

theorem pqDrain_spec {lt : α → α → Bool} (hlt : StrictWeak lt) : ∀ (n : Nat) (q : PQ α), q.heap.length = n → Inv lt q →
    ∃ out, PqDrain lt q out ∧ out.Perm q.heap ∧ out.Pairwise (fun a b => lt b a = false) := by
  intro n
  induction n with
  | zero =>
    intro q hn _
    have h0 : q.heap = [] := List.length_eq_zero_iff.mp hn
    exact ⟨[], .done (pop_none q h0), by rw [h0], List.Pairwise.nil⟩
  | succ n ih =>
    intro q hn hq
    obtain ⟨t, q', h1, h2, _, h4, _, h6⟩ := pop_spec hlt q hq (by intro h; rw [h] at hn; simp at hn)
    have hl : q'.heap.length = n := by have := h4.length_eq; simp at this; omega
    obtain ⟨out, d, p, s⟩ := ih q' hl h2
    refine ⟨t :: out, .step h1 d, (p.cons t).trans h4, List.pairwise_cons.mpr ⟨?_, s⟩⟩
    intro x hx
    exact h6 x (h4.mem_iff.mp (List.mem_cons_of_mem _ (p.mem_iff.mp hx)))

theorem pqInsertAll_spec {lt : α → α → Bool} (hlt : StrictWeak lt) (xs : List α) : ∀ (q : PQ α) (seen rest : List α),
    Inv lt q → (q.heap ++ rest).Perm seen → (∀ a ∈ q.heap, ∀ b ∈ rest, lt a b = false) → q.heap.length = min q.capa seen.length →
    ∃ q' rest', pqInsertAll lt q xs = .ok q' ∧ Inv lt q' ∧ q'.capa = q.capa ∧ (q'.heap ++ rest').Perm (seen ++ xs) ∧
      (∀ a ∈ q'.heap, ∀ b ∈ rest', lt a b = false) ∧ q'.heap.length = min q.capa (seen ++ xs).length := by
  induction xs with
  | nil => intro q seen rest h1 h2 h3 h4; exact ⟨q, rest, rfl, h1, rfl, by simpa using h2, h3, by simpa using h4⟩
  | cons x xs ih =>
    intro q seen rest h1 h2 h3 h4
    obtain ⟨q', i, o, e1, e2, e3, e4⟩ := insert_spec hlt q x h1
    have hlen := h2.length_eq
    simp only [List.length_append] at hlen
    rcases e4 with ⟨hr, _, _, hp⟩ | ⟨hf, d, _, hp, hl, hd, _, _⟩
    · have hrest : rest = [] := List.length_eq_zero_iff.mp (by omega)
      subst hrest
      obtain ⟨q2, rest2, f1, f2, f3, f4, f5, f6⟩ := ih q' (seen ++ [x]) [] e2
        (by
          simp only [List.append_nil] at h2 ⊢
          exact hp.trans ((h2.cons x).trans (List.perm_append_comm (l₁ := [x]) (l₂ := seen))))
        (by intro a _ b hb; simp at hb)
        (by rw [hp.length_eq, e3]; simp at hlen ⊢; omega)
      refine ⟨q2, rest2, ?_, f2, by rw [f3, e3], by simpa using f4, f5, by rw [f6, e3]; simp⟩
      simp only [pqInsertAll, e1, Res.ok_bind]; exact f1
    · obtain ⟨q2, rest2, f1, f2, f3, f4, f5, f6⟩ := ih q' (seen ++ [x]) (d :: rest) e2
        (by
          have a1 : (q'.heap ++ d :: rest).Perm (d :: q'.heap ++ rest) := by
            simpa using (List.perm_middle (a := d) (l₁ := q'.heap) (l₂ := rest))
          have a2 : (d :: q'.heap ++ rest).Perm (x :: q.heap ++ rest) := List.Perm.append_right rest hp
          have a3 : (x :: q.heap ++ rest).Perm (seen ++ [x]) := by
            simpa using (h2.cons x).trans (List.perm_append_comm (l₁ := [x]) (l₂ := seen))
          exact a1.trans (a2.trans a3))
        (by
          intro a ha b hb
          rcases List.mem_cons.mp hb with rfl | hb
          · exact hd a ha
          · have hax : a ∈ x :: q.heap := hp.mem_iff.mp (List.mem_cons_of_mem _ ha)
            rcases List.mem_cons.mp hax with rfl | haq
            · -- the new element stayed: everything kept is ≥ d and d came from the old queue or equals it
              have hdx : d ∈ a :: q.heap := hp.mem_iff.mp (List.mem_cons_self ..)
              rcases List.mem_cons.mp hdx with rfl | hdq
              · -- dropped element is a copy of the new one; then `a` also is in the old queue
                have hpq : q'.heap.Perm q.heap := List.Perm.cons_inv hp
                exact h3 d (hpq.mem_iff.mp ha) b hb
              · exact hlt.negTrans a d b (hd a ha) (h3 d hdq b hb)
            · exact h3 a haq b hb)
        (by rw [hl, e3]; simp at hlen ⊢; omega)
      refine ⟨q2, rest2, ?_, f2, by rw [f3, e3], by simpa using f4, f5, by rw [f6, e3]; simp⟩
      simp only [pqInsertAll, e1, Res.ok_bind]; exact f1

/-- **C07.** For every capacity `k`, every sequence and every strict weak order: inserting the
sequence through the bounded insert and popping until empty is memory safe, terminates and
yields, in ascending order, `k` greatest elements of the sequence. -/
theorem c07_keeps_greatest_k (lt : α → α → Bool) (hlt : StrictWeak lt) (k : Nat) (xs : List α) :
    ∃ q out, pqInsertAll lt (PQ.new k) xs = .ok q ∧ PqDrain lt q out ∧ GreatestAsc lt k xs out := by
  obtain ⟨q, rest, h1, h2, h3, h4, h5, h6⟩ := pqInsertAll_spec hlt xs (PQ.new k) [] [] (inv_new lt k) (by simp [PQ.new])
    (by intro a _ b hb; simp at hb) (by simp [PQ.new])
  obtain ⟨out, d, p, s⟩ := pqDrain_spec hlt q.heap.length q rfl h2
  refine ⟨q, out, h1, d, s, ?_, rest, ?_, ?_⟩
  · rw [p.length_eq, h6]; simp [PQ.new]
  · simpa using (p.append_right rest).trans h4
  · intro a ha b hb; exact h5 a (p.mem_iff.mp ha) b hb

/-- For a strict total order the choice is unique: the drained list is the last `k` elements
of the sorted sequence. -/
theorem greatestAsc_unique {lt : α → α → Bool} (hlt : StrictWeak lt) (htot : ∀ a b, lt a b = false → lt b a = false → a = b)
    {k : Nat} {xs out : List α} (h : GreatestAsc lt k xs out) :
    out = (xs.mergeSort (fun a b => !lt b a)).drop (xs.length - k) := by
  obtain ⟨hs, hl, rest, hp, hr⟩ := h
  have htrans : ∀ a b c : α, (!lt b a) = true → (!lt c b) = true → (!lt c a) = true := by
    intro a b c h1 h2
    simp only [Bool.not_eq_true'] at *
    exact hlt.negTrans _ _ _ h2 h1
  have htotal : ∀ a b : α, ((!lt b a) || (!lt a b)) = true := by
    intro a b
    cases h1 : lt b a with
    | false => rfl
    | true => rw [hlt.asymm _ _ h1]; rfl
  let R := rest.mergeSort (fun a b => !lt b a)
  have hR : R.Perm rest := List.mergeSort_perm _ _
  have hsorted : (R ++ out).Pairwise (fun a b => (!lt b a) = true) := by
    rw [List.pairwise_append]
    refine ⟨List.pairwise_mergeSort htrans htotal rest, hs.imp (fun h => by simpa using h), ?_⟩
    intro a ha b hb
    simpa using hr b hb a (hR.mem_iff.mp ha)
  have hperm : (R ++ out).Perm (xs.mergeSort (fun a b => !lt b a)) :=
    ((List.perm_append_comm).trans (hR.append_left out)).trans (hp.trans (List.mergeSort_perm _ _).symm)
  have heq : R ++ out = xs.mergeSort (fun a b => !lt b a) :=
    hperm.eq_of_pairwise (fun a b _ _ h1 h2 => htot a b (by simpa using h2) (by simpa using h1))
      hsorted (List.pairwise_mergeSort htrans htotal xs)
  have hlen := hp.length_eq
  simp only [List.length_append] at hlen
  rw [← heq, List.drop_left' (by rw [hR.length_eq]; omega)]

/-- The C function called and its visible answer (only pop answers an element). -/
def pqCall (lt : α → α → Bool) (q : PQ α) : PqCall α → Res (Option α × PQ α)
  | .push e => PQ.push lt q e >>= fun q' => .ok (none, q')
  | .insert e => PQ.insert lt q e >>= fun r => .ok (none, r.1)
  | .pop => PQ.pop lt q

/-- Run a history, collecting the answers. -/
def pqRun (lt : α → α → Bool) (q : PQ α) : List (PqCall α) → Res (List (Option α) × PQ α)
  | [] => .ok ([], q)
  | c :: cs => pqCall lt q c >>= fun r => pqRun lt r.2 cs >>= fun r2 => .ok (r.1 :: r2.1, r2.2)

theorem pqRun_spec {lt : α → α → Bool} (hlt : StrictWeak lt) (cs : List (PqCall α)) : ∀ (q : PQ α), Inv lt q →
    ∃ os q', pqRun lt q cs = .ok (os, q') ∧ BagRun lt q.capa q.heap cs os q'.heap := by
  induction cs with
  | nil => intro q _; exact ⟨[], q, rfl, .nil⟩
  | cons c cs ih =>
    intro q hq
    have step : ∃ o q1, pqCall lt q c = .ok (o, q1) ∧ Inv lt q1 ∧ q1.capa = q.capa ∧ BagStep lt q.capa q.heap c o q1.heap := by
      cases c with
      | push e =>
        obtain ⟨q1, h1, h2, h3, h4⟩ := push_spec hlt q e hq
        exact ⟨none, q1, by simp only [pqCall, h1, Res.ok_bind], h2, h3, .push h4⟩
      | insert e =>
        obtain ⟨q1, i, o, h1, h2, h3, h4⟩ := insert_spec hlt q e hq
        refine ⟨none, q1, by simp only [pqCall, h1, Res.ok_bind], h2, h3, ?_⟩
        rcases h4 with ⟨a, _, _, b⟩ | ⟨a, d, _, b, _, c, _⟩
        · exact .insertRoom a b
        · exact .insertFull a b c
      | pop =>
        by_cases h0 : q.heap = []
        · refine ⟨none, q, pop_none q h0, hq, rfl, ?_⟩
          rw [h0]; exact .popEmpty
        · obtain ⟨t, q1, h1, h2, h3, h4, _, h6⟩ := pop_spec hlt q hq h0
          exact ⟨some t, q1, h1, h2, h3, .pop h4 h6⟩
    obtain ⟨o, q1, h1, h2, h3, h4⟩ := step
    obtain ⟨os, q2, h5, h6⟩ := ih q1 h2
    refine ⟨o :: os, q2, ?_, .cons h4 (by rw [h3] at h6; exact h6)⟩
    simp only [pqRun, h1, h5, Res.ok_bind]

/-- **C07 (histories).** Every interleaving of push, bounded insert and pop is memory safe and
answers as an abstract bag: pop returns a least element, insert into a full queue drops a
least one. -/
theorem c07_histories_refine_bag (lt : α → α → Bool) (hlt : StrictWeak lt) (capa : Nat) (cs : List (PqCall α)) :
    ∃ os q, pqRun lt (PQ.new capa) cs = .ok (os, q) ∧ BagRun lt capa [] cs os q.heap :=
  pqRun_spec hlt cs (PQ.new capa) (inv_new lt capa)

/-- Non-vacuity: `<` on numbers is a strict weak order, and the queue really drops and sorts. -/
theorem natLt_strictWeak : StrictWeak (fun a b : Nat => decide (a < b)) :=
  ⟨by intro a b h; simp at *; omega, by intro a b c h1 h2; simp at *; omega⟩
example : ∃ q, pqInsertAll (fun a b : Nat => decide (a < b)) (PQ.new 3) [5, 1, 9, 7, 3, 9, 2] = .ok q ∧ q.heap = [7, 9, 9] :=
  ⟨_, rfl, rfl⟩

#print axioms c07_keeps_greatest_k
#print axioms greatestAsc_unique
#print axioms c07_histories_refine_bag

end Ferret.Props
