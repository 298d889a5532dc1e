import Verif.Lemmas.EnumDel

/-!
C99: enumerations of documents, lookups by term and deletions by term, while documents are deleted through the same reader.

The code departs from the English property: an enumeration opened when nothing was deleted in a segment gives documents of it that are deleted
afterwards (`c99_blind_enumeration`), while one opened later does not, and when deletions are undone, enumerations that were opened while
there were any use freed memory (`c99_undelete_ub`).
-/

namespace Ferret.Props
open Ferret Ferret.Spec Ferret.EnumDel

/-- **Any history.** For any segments and any calls on a reader — enumerations opened, moved on and closed, documents deleted and undeleted,
documents looked up and deleted by a term — everything returns what Spec/EnumDel says: a lookup by a term gives the first document
with the term that is not deleted; deleting by a term deletes all documents with the term and no others; an enumeration gives the
documents with its term that are left, in order, without those deleted by then, if in their segments some document was deleted when it
was opened. No freed memory is used. Missing: enumerations give no deleted documents in any case, and go on after deletions were undone
(false, see below). -/
theorem c99_history_partial (segs : List EnumSeg) (hw : ∀ s ∈ segs, ∀ t, ∀ o ∈ s.docs t, o < s.size) (ops : List EnumOp) (obs : List EnumObs) (s : EnumState)
    (h : enumRun segs ⟨[], []⟩ ops = some (obs, s)) : ∃ m, run (fresh segs) ops = .ok (obs, m) := by
  obtain ⟨m, h1, _⟩ := run_spec hw ops (rel_fresh segs) h
  exact ⟨m, h1⟩

theorem enumRun_append (segs : List EnumSeg) : ∀ (a b : List EnumOp) (s : EnumState),
    enumRun segs s (a ++ b) = (enumRun segs s a).bind fun r => (enumRun segs r.2 b).map fun r' => (r.1 ++ r'.1, r'.2)
  | [], b, s => by
    simp only [List.nil_append, enumRun, Option.bind_some]
    cases enumRun segs s b <;> rfl
  | op :: a, b, s => by
    simp only [List.cons_append, enumRun]
    cases enumStep segs s op with
    | none => rfl
    | some r =>
      simp only [Option.bind_some, enumRun_append segs a b]
      cases enumRun segs r.2 a with
      | none => rfl
      | some r1 =>
        simp only [Option.bind_some, Option.map_some]
        cases enumRun segs r1.2 b <;> rfl

/-- The documents with a term, of a list of segments, are those that have it in their segments. -/
theorem mem_docsWith {t x : Nat} : ∀ {segs : List EnumSeg} {b : Nat}, x ∈ docsWith t b segs ↔
    ∃ (i : Nat) (s : EnumSeg) (o : Nat), segs[i]? = some s ∧ o ∈ s.docs t ∧ x = b + ((segs.take i).map (·.size)).sum + o
  | [], b => by simp [docsWith]
  | s :: r, b => by
    rw [docsWith, List.mem_append, List.mem_map, mem_docsWith]
    constructor
    · rintro (⟨o, ho, rfl⟩ | ⟨i, s', o, h1, h2, h3⟩)
      · exact ⟨0, s, o, rfl, ho, by simp⟩
      · exact ⟨i + 1, s', o, h1, h2, by simp only [List.take_succ_cons, List.map_cons, List.sum_cons]; omega⟩
    · rintro ⟨i, s', o, h1, h2, h3⟩
      cases i with
      | zero => cases h1; exact .inl ⟨o, h2, by simpa using h3.symm⟩
      | succ i => exact .inr ⟨i, s', o, h1, h2, by simp only [List.take_succ_cons, List.map_cons, List.sum_cons] at h3; omega⟩

/-- **Looking up and deleting by a term.** After any history: when all documents with a term are deleted, looking one up gives none, each of
them is deleted, and any other document is deleted just if it was before. -/
theorem c99_delete_term (segs : List EnumSeg) (hw : ∀ s ∈ segs, ∀ t, ∀ o ∈ s.docs t, o < s.size) (ops : List EnumOp) (obs : List EnumObs) (s : EnumState)
    (h : enumRun segs ⟨[], []⟩ ops = some (obs, s)) (t d : Nat) (hd : d < (segs.map (·.size)).sum) :
    ∃ m before after, run (fresh segs) (ops ++ [.isDeleted d, .deleteTerm t, .lookup t, .isDeleted d]) =
        .ok (obs ++ [.bool before, .unit, .doc none, .bool after], m) ∧
      (after = true ↔ before = true ∨ ∃ (i : Nat) (g : EnumSeg) (o : Nat), segs[i]? = some g ∧ o ∈ g.docs t ∧ d = ((segs.take i).map (·.size)).sum + o) := by
  have e : enumRun segs ⟨[], []⟩ (ops ++ [.isDeleted d, .deleteTerm t, .lookup t, .isDeleted d]) =
      some (obs ++ [.bool (decide (d ∈ s.dead)), .unit, .doc none, .bool (decide (d ∈ docsWith t 0 segs ++ s.dead))], { s with dead := docsWith t 0 segs ++ s.dead }) := by
    rw [enumRun_append, h]
    have hf : (docsWith t 0 segs).find? (fun x => !decide (x ∈ docsWith t 0 segs ++ s.dead)) = none := by
      rw [List.find?_eq_none]
      intro x hx
      simp [hx]
    simp only [Option.bind_some, enumRun, enumStep, if_pos hd, hf, Option.map_some]
  obtain ⟨m, h1⟩ := c99_history_partial segs hw _ _ _ e
  refine ⟨m, _, _, h1, ?_⟩
  simp only [decide_eq_true_eq, List.mem_append, mem_docsWith, Nat.zero_add]
  exact or_comm

theorem docsWith_ge {t : Nat} {segs : List EnumSeg} {b x : Nat} (h : x ∈ docsWith t b segs) : b ≤ x := by
  obtain ⟨_, _, _, _, _, h3⟩ := mem_docsWith.1 h
  omega

theorem docsWith_asc {t : Nat} : ∀ (segs : List EnumSeg) (b : Nat), (∀ s ∈ segs, ∀ o ∈ s.docs t, o < s.size) → (∀ s ∈ segs, (s.docs t).Pairwise (· < ·)) →
    (docsWith t b segs).Pairwise (· < ·)
  | [], _, _, _ => List.Pairwise.nil
  | s :: r, b, hw, ha => by
    rw [docsWith, List.pairwise_append]
    refine ⟨?_, docsWith_asc r _ (fun x hx => hw x (List.mem_cons_of_mem _ hx)) (fun x hx => ha x (List.mem_cons_of_mem _ hx)), ?_⟩
    · rw [List.pairwise_map]
      exact (ha s List.mem_cons_self).imp (fun h => by omega)
    · intro x hx y hy
      obtain ⟨o, ho, rfl⟩ := List.mem_map.1 hx
      have := hw s List.mem_cons_self o ho
      have := docsWith_ge hy
      omega

/-- **What is looked up is there.** After any history, looking up a document by a term gives a document that has the term and is not deleted, and
no document before it is such; it gives none just if there is none. -/
theorem c99_lookup (segs : List EnumSeg) (hw : ∀ s ∈ segs, ∀ t, ∀ o ∈ s.docs t, o < s.size) (ha : ∀ s ∈ segs, ∀ t, (s.docs t).Pairwise (· < ·)) (ops : List EnumOp) (obs : List EnumObs) (s : EnumState)
    (h : enumRun segs ⟨[], []⟩ ops = some (obs, s)) (t : Nat) :
    ∃ m found, run (fresh segs) (ops ++ [.lookup t]) = .ok (obs ++ [.doc found], m) ∧
      (∀ d, found = some d → d ∈ docsWith t 0 segs ∧ d < (segs.map (·.size)).sum ∧ ∃ m', run (fresh segs) (ops ++ [.lookup t, .isDeleted d]) = .ok (obs ++ [.doc found, .bool false], m')) ∧
      (∀ d, found = some d → ∀ d' ∈ docsWith t 0 segs, d' < d → ∃ m', run (fresh segs) (ops ++ [.lookup t, .isDeleted d']) = .ok (obs ++ [.doc found, .bool true], m')) ∧
      (found = none → ∀ d ∈ docsWith t 0 segs, d < (segs.map (·.size)).sum ∧ ∃ m', run (fresh segs) (ops ++ [.lookup t, .isDeleted d]) = .ok (obs ++ [.doc found, .bool true], m')) := by
  have hlt : ∀ d ∈ docsWith t 0 segs, d < (segs.map (·.size)).sum := by
    intro d hd
    obtain ⟨i, g, o, h1, h2, h3⟩ := mem_docsWith.1 hd
    have ho := hw g (List.mem_of_getElem? h1) t o h2
    have hi := (List.getElem?_eq_some_iff.1 h1).1
    have hg := (List.getElem?_eq_some_iff.1 h1).2
    have e : ((segs.take i ++ segs.drop i).map (fun x => x.size)).sum = (segs.map (fun x => x.size)).sum := by rw [List.take_append_drop]
    rw [List.drop_eq_getElem_cons hi, hg] at e
    simp only [List.map_append, List.sum_append, List.map_cons, List.sum_cons] at e
    omega
  have e : enumRun segs ⟨[], []⟩ (ops ++ [.lookup t]) = some (obs ++ [.doc ((docsWith t 0 segs).find? (fun d => !decide (d ∈ s.dead)))], s) := by
    rw [enumRun_append, h]
    simp only [Option.bind_some, enumRun, enumStep, Option.map_some]
  have e2 : ∀ d, d < (segs.map (·.size)).sum → enumRun segs ⟨[], []⟩ (ops ++ [.lookup t, .isDeleted d]) =
      some (obs ++ [.doc ((docsWith t 0 segs).find? (fun d => !decide (d ∈ s.dead))), .bool (decide (d ∈ s.dead))], s) := by
    intro d hd
    rw [enumRun_append, h]
    simp only [Option.bind_some, enumRun, enumStep, if_pos hd, Option.map_some]
  obtain ⟨m, h1⟩ := c99_history_partial segs hw _ _ _ e
  refine ⟨m, _, h1, ?_, ?_, ?_⟩
  · intro d hd
    have hm := List.mem_of_find?_eq_some hd
    have hp := List.find?_some hd
    obtain ⟨m', h2⟩ := c99_history_partial segs hw _ _ _ (e2 d (hlt d hm))
    refine ⟨hm, hlt d hm, m', ?_⟩
    rw [h2]
    simp only [Bool.not_eq_true', decide_eq_false_iff_not] at hp
    simp [hp]
  · intro d hd d' hm' hlt'
    obtain ⟨m', h2⟩ := c99_history_partial segs hw _ _ _ (e2 d' (hlt d' hm'))
    refine ⟨m', ?_⟩
    rw [h2]
    obtain ⟨_, as, bs, hab, has⟩ := List.find?_eq_some_iff_append.1 hd
    have hasc := docsWith_asc (t := t) segs 0 (fun g hg => hw g hg t) (fun g hg => ha g hg t)
    rw [hab] at hasc hm'
    have hin : d' ∈ as := by
      rcases List.mem_append.1 hm' with h' | h'
      · exact h'
      · rcases List.mem_cons.1 h' with rfl | h'
        · exact absurd hlt' (Nat.lt_irrefl _)
        · have := (List.pairwise_cons.1 (List.pairwise_append.1 hasc).2.1).1 d' h'
          omega
    have := has d' hin
    simp only [Bool.not_eq_true', Bool.not_eq_false', Bool.not_not, decide_eq_true_eq] at this
    simp [this]
  · intro hn d hd
    obtain ⟨m', h2⟩ := c99_history_partial segs hw _ _ _ (e2 d (hlt d hd))
    refine ⟨hlt d hd, m', ?_⟩
    rw [h2]
    have := List.find?_eq_none.1 hn d hd
    simp only [Bool.not_eq_true', decide_eq_false_iff_not, Decidable.not_not] at this
    simp [this]

/-! ### A case -/

/-- Two segments with 4 and 3 documents. The term 1 is in all of them but the first of the second segment, the term 2 in the last of each. -/
def twoSegs : List EnumSeg :=
  [⟨4, fun t => if t = 1 then [0, 1, 2, 3] else if t = 2 then [3] else []⟩, ⟨3, fun t => if t = 1 then [1, 2] else if t = 2 then [2] else []⟩]

theorem twoSegs_ok : ∀ s ∈ twoSegs, ∀ t, ∀ o ∈ s.docs t, o < s.size := by
  intro s hs t o ho
  simp only [twoSegs, List.mem_cons, List.not_mem_nil, or_false] at hs
  rcases hs with rfl | rfl <;> dsimp only at ho ⊢ <;> split at ho
  · simp at ho; omega
  · split at ho <;> simp at ho; omega
  · simp at ho; omega
  · split at ho <;> simp at ho; omega

theorem twoSegs_asc : ∀ s ∈ twoSegs, ∀ t, (s.docs t).Pairwise (· < ·) := by
  intro s hs t
  simp only [twoSegs, List.mem_cons, List.not_mem_nil, or_false] at hs
  rcases hs with rfl | rfl <;> dsimp only <;> split
  · decide
  · split <;> decide
  · decide
  · split <;> decide

/-- Enumerations are opened before and between deletions. -/
def enumCalls : List EnumOp :=
  [.delete 0, .openEnum 1, .lookup 1, .next 0, .delete 2, .next 0, .isDeleted 2, .skipTo 0 5, .deleteTerm 2, .lookup 2, .next 0, .openEnum 1, .next 1, .next 1, .next 1,
   .close 0, .close 1, .undelete, .lookup 1]

example : (enumRun twoSegs ⟨[], []⟩ enumCalls).map (·.1) = some
    [.unit, .unit, .doc (some 1), .doc (some 1), .unit, .doc (some 3), .bool true, .doc (some 5), .unit, .doc none, .doc (some 6), .unit,
     .doc (some 1), .doc (some 5), .doc none, .unit, .unit, .unit, .doc (some 0)] := by decide +kernel

/-! ### Where the code falls short -/

/-- What is seen. -/
def seenBy (segs : List EnumSeg) (ops : List EnumOp) : Res (List EnumObs) := run (fresh segs) ops >>= fun r => .ok r.1

/-- An enumeration is opened, a document is deleted: the enumeration gives it. One that is opened afterwards does not. -/
theorem c99_blind_enumeration :
    seenBy twoSegs [.openEnum 1, .delete 1, .next 0, .next 0, .isDeleted 1, .openEnum 1, .next 1, .next 1] =
      .ok [.unit, .unit, .doc (some 0), .doc (some 1), .bool true, .unit, .doc (some 0), .doc (some 2)] := by
  decide +kernel

/-- An enumeration is opened while a document is deleted, and deletions are undone: the enumeration uses a vector that was freed. -/
theorem c99_undelete_ub : seenBy twoSegs [.delete 1, .openEnum 1, .undelete, .next 0] = .ub := by decide +kernel

#print axioms c99_history_partial
#print axioms c99_delete_term
#print axioms c99_lookup
#print axioms c99_blind_enumeration
#print axioms c99_undelete_ub
end Ferret.Props
