import Verif.Props.C22

/-! C21: the documents of a term are those written, in ascending order, minus the deleted ones. -/

namespace Ferret.Props
open Ferret Ferret.Expand Ferret.Dict Ferret.Post

/-- The documents and frequencies of a term, without those deleted. -/
def docsOf (fields : List (Nat × List (Term × List Posting))) (dead : Nat → Bool) (f : Int) (t : Term) : List (Int × Int) :=
  (((postingsOf fields f t).getD []).filter fun p => !dead p.doc).map fun p => ((p.doc : Int), (p.freq : Int))

/-- A list cut into pieces of at most the given lengths. -/
def pieces {α : Type} : List Nat → List α → List (List α)
  | [], _ => []
  | n :: ns, l => l.take n :: pieces ns (l.drop n)

theorem run_nexts (fields : List (Nat × List (Term × List Posting))) (dead : Nat → Bool) : ∀ (k : Nat) (c : PCur),
    PCur.run fields dead c (List.replicate k .next) = (List.range k).map fun i => .doc ((c.rest.map fun p => ((p.doc : Int), (p.freq : Int)))[i]?) := by
  intro k
  induction k with
  | zero => intro c; rfl
  | succ k ih =>
    intro c
    rw [List.replicate_succ, List.range_succ_eq_map, List.map_cons, List.map_map]
    show (PCur.take c.rest).2 :: PCur.run fields dead (PCur.take c.rest).1 (List.replicate k .next) = _
    rw [ih]
    cases hr : c.rest with
    | nil => simp [PCur.take]
    | cons p rest => simp [PCur.take]

theorem run_reads (fields : List (Nat × List (Term × List Posting))) (dead : Nat → Bool) : ∀ (ns : List Nat) (c : PCur),
    PCur.run fields dead c (ns.map .read) = (pieces ns (c.rest.map fun p => ((p.doc : Int), (p.freq : Int)))).map .docs := by
  intro ns
  induction ns with
  | nil => intro c; rfl
  | cons n ns ih =>
    intro c
    show _ :: PCur.run fields dead _ (ns.map .read) = _
    rw [ih]
    simp [PCur.step, pieces, List.map_take, List.map_drop]

/-- **C21.** For every segment, skip interval and set of deletions: the documents of a term are
enumerated in ascending order with their frequencies, without those deleted and nothing else, by `next`
as well as by reading with buffers of any sizes. -/
theorem c21_documents (ii si : Nat) (fields : List (Nat × List (Term × List Posting))) (h : Segment ii si fields) (hsi : 0 < si) :
    ∃ fs, flush ii si fields = .ok fs ∧ (fs.dict.tis.length < 2 ^ 64 → fs.dict.tix.length < 2 ^ 64 →
      ∃ sfi, sfiOpen fs.dict = .ok sfi ∧ ∀ (del : Option BitVector.BV) (dead : Nat → Bool), Deletes del dead → ∀ (f : Int) (t : Term),
        ((docsOf fields dead f t).Pairwise fun a b => a.1 < b.1) ∧
        (∀ k : Nat, postRun sfi fs.dict.tis ⟨tirOpen, stdeNew false sfi.skipInterval del fs.frq fs.prx⟩ (.seek f t :: List.replicate k .next) =
          .ok (.done :: (List.range k).map fun i => .doc (docsOf fields dead f t)[i]?)) ∧
        ∀ ns : List Nat, postRun sfi fs.dict.tis ⟨tirOpen, stdeNew false sfi.skipInterval del fs.frq fs.prx⟩ (.seek f t :: ns.map .read) =
          .ok (.done :: (pieces ns (docsOf fields dead f t)).map .docs)) := by
  obtain ⟨fs, e1, h1⟩ := c22_session_partial ii si fields h hsi
  refine ⟨fs, e1, fun l1 l2 => ?_⟩
  obtain ⟨sfi, e2, h2⟩ := h1 l1 l2
  refine ⟨sfi, e2, fun del dead hdel f t => ⟨?_, fun k => ?_, fun ns => ?_⟩⟩
  · unfold docsOf
    rw [List.pairwise_map]
    refine List.Pairwise.filter _ ?_
    cases hp : postingsOf fields f t with
    | none => exact List.Pairwise.nil
    | some ps =>
      unfold postingsOf at hp
      cases hf : fields.find? (fun x => decide ((x.1 : Int) = f)) with
      | none => rw [hf] at hp; cases hp
      | some x =>
        rw [hf, Option.bind_some] at hp
        cases hy : x.2.find? (fun y => decide (y.1 = t)) with
        | none => rw [hy] at hp; cases hp
        | some y =>
          rw [hy] at hp
          cases hp
          exact (h.postings x (List.mem_of_find?_eq_some hf) y (List.mem_of_find?_eq_some hy)).asc.imp fun hlt => by omega
  · rw [h2 false del dead hdel _ fun op ho => ?_]
    · show Res.ok (PostOut.done :: PCur.run fields dead _ _) = _
      rw [run_nexts]; rfl
    · rcases List.mem_cons.1 ho with rfl | ho
      · rfl
      · obtain rfl := List.eq_of_mem_replicate ho; rfl
  · rw [h2 false del dead hdel _ fun op ho => ?_]
    · show Res.ok (PostOut.done :: PCur.run fields dead _ _) = _
      rw [run_reads]; rfl
    · rcases List.mem_cons.1 ho with rfl | ho
      · rfl
      · obtain ⟨n, -, rfl⟩ := List.mem_map.1 ho; rfl

/-- Ten documents, 7 deleted. -/
example : docsOf seg22 (fun d => d == 7) 1 [97] = [(0, 2), (1, 2), (2, 2), (3, 2), (4, 2), (5, 2), (6, 2), (8, 2), (9, 2)] := by decide +kernel

#print axioms c21_documents
end Ferret.Props
