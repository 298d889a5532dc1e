import Verif.Lemmas.PhraseWalk
import Verif.Props.C67

/-! C40: sloppy phrases with repeated terms. -/

namespace Ferret.Props
open Ferret.Scorer Ferret.Spec Ferret.Phrase

variable {S T : Type}

/-- **C40**, what holds. For every index whose posting lists are in order, every sloppy phrase of at least two
positions with repeated terms, every slop, however the scorer has come to a document (any successful `next` and
`skip_to` calls, each jump past the current document): the phrase occurs within the slop, and any `k` phrase
positions with different offsets are on at least `⌈k/2⌉` different words. The property asks for `k`;
`c40_violated_single` shows it fails for two. The calls return. -/
theorem c40_repeated_partial [DecidableEq T] (A : Arith S) (ix : T → List Post.Posting) (hix : ∀ t, DocsOK (ix t)) (q : PhQ T) (hq : 2 ≤ q.parts.length)
    (hr : ¬ (q.parts.flatMap (·.terms)).Nodup) (tfw : List Int → S) (norm : Int → S) (qs : QSort (Tde ⊕ Mtdpe)) (hqs : Sorts qs) :
    ∃ s, phwScorer ix tfw norm q = .ok (some s) ∧
    ∀ d t, Walked (sloppyOps A anyOps qs (repeats (q.parts.map (·.terms))) q.slop) s d t →
      (∃ r, (sloppyOps A anyOps qs (repeats (q.parts.map (·.terms))) q.slop).next t = .ok r) ∧
      (∀ n, d < n → ∃ r, (sloppyOps A anyOps qs (repeats (q.parts.map (·.terms))) q.slop).skipTo t n = .ok r) ∧
      (0 ≤ d → Within ix q.parts q.slop d ∧
        ∀ K : List (PhrasePart T), K.Sublist q.parts → (K.map (·.offset)).Nodup →
          ∃ L : List Int, L.Nodup ∧ L.length = (K.length + 1) / 2 ∧ ∀ p ∈ L, ∃ x ∈ K, PartAt ix x d p) := by
  have hrep : repeats (q.parts.map (·.terms)) = true := by
    unfold repeats
    rw [← List.flatMap_def]
    simpa using hr
  rw [hrep]
  have hne : q.parts ≠ [] := by intro h; rw [h] at hq; simp at hq
  have hv : IsPh (fun ks => 2 ≤ ks.length) (SloppyVal true q.slop) (fun f => decide (f = [])) (keysOf ix q.parts) (fun _ => False)
      (fun d => ∃ k, k ≤ q.slop ∧ Scored true (ats d (keysOf ix q.parts)) k) := by
    refine ⟨?_, ?_, ?_, fun d f hf => ⟨fun h => h.elim, fun hz => ?_⟩⟩
    · intro h; exact hne (by simpa [keysOf] using h)
    · intro k hk
      obtain ⟨x, hx, rfl⟩ := List.mem_map.1 hk
      exact partDocs_ok hix x
    · simpa [keysOf] using hq
    · obtain ⟨k, hk⟩ := List.exists_mem_of_ne_nil f (by simpa using hz)
      exact ⟨k, (hf.1 k hk).2⟩
  obtain ⟨s, h1, h2⟩ := phw_at (Val := SloppyVal true q.slop) (zero := fun f => decide (f = [])) hix tfw norm q hne
  refine ⟨s, h1, fun d t hw => ?_⟩
  obtain ⟨a, b, c⟩ := walked_spec lawful_any hqs (freqOK_sloppy lawful_any true q.slop) hv h2 hw
  refine ⟨a, b, fun hd => ?_⟩
  obtain ⟨k, hk, hs⟩ := (c hd).1
  refine ⟨?_, fun K hK hoff => hs.words hix hK hoff⟩
  obtain ⟨lo, h⟩ := hs.within hix
  exact ⟨lo, fun x hx => by obtain ⟨p, p1, p2, p3⟩ := h x hx; exact ⟨p, p1, by omega, p3⟩⟩

theorem flatMap_sublist {α β : Type} (f : α → List β) {l m : List α} (h : l.Sublist m) : (l.flatMap f).Sublist (m.flatMap f) := by
  induction h with
  | slnil => exact .refl _
  | cons a _ ih => rw [List.flatMap_cons]; exact ih.trans (List.sublist_append_right _ _)
  | cons_cons a _ ih => rw [List.flatMap_cons, List.flatMap_cons]; exact (List.Sublist.refl _).append ih

/-- In particular: a term at three different offsets of a sloppy phrase is in every document found at least twice. -/
theorem c40_three_partial [DecidableEq T] (A : Arith S) (ix : T → List Post.Posting) (hix : ∀ t, DocsOK (ix t)) (q : PhQ T) (tfw : List Int → S) (norm : Int → S) (qs : QSort (Tde ⊕ Mtdpe)) (hqs : Sorts qs)
    (w : T) (i j k : Int) (hij : i < j) (hjk : j < k) (hK : List.Sublist [⟨[w], i⟩, ⟨[w], j⟩, ⟨[w], k⟩] q.parts) :
    ∃ s, phwScorer ix tfw norm q = .ok (some s) ∧
    ∀ d t, Walked (sloppyOps A anyOps qs (repeats (q.parts.map (·.terms))) q.slop) s d t → 0 ≤ d → ∃ p p', p ≠ p' ∧ TermAt ix w d p ∧ TermAt ix w d p' := by
  have hlen := hK.length_le
  simp only [List.length_cons, List.length_nil] at hlen
  have hr : ¬ (q.parts.flatMap (·.terms)).Nodup := by
    intro h
    have h1 : (([⟨[w], i⟩, ⟨[w], j⟩, ⟨[w], k⟩] : List (PhrasePart T)).flatMap (·.terms)).Sublist (q.parts.flatMap (·.terms)) := flatMap_sublist _ hK
    have := h.sublist h1
    simp at this
  obtain ⟨s, h1, h2⟩ := c40_repeated_partial A ix hix q (by omega) hr tfw norm qs hqs
  refine ⟨s, h1, fun d t hw hd => ?_⟩
  obtain ⟨L, l1, l2, l3⟩ := ((h2 d t hw).2.2 hd).2 _ hK (by simp; omega)
  have l2 : L.length = 2 := by simpa using l2
  match L, l1, l2, l3 with
  | [p, p'], l1, _, l3 =>
    have hat : ∀ x, x ∈ [p, p'] → TermAt ix w d x := by
      intro x hx
      obtain ⟨y, hy, t', ht', h⟩ := l3 x hx
      simp at hy
      rcases hy with rfl | rfl | rfl <;> (rw [List.mem_singleton] at ht'; subst ht'; exact h)
    refine ⟨p, p', ?_, hat p (by simp), hat p' (by simp)⟩
    simp at l1
    exact l1

/-- Exact phrases: a term at `k` offsets of the phrase is in every document where it occurs at `k` places. -/
theorem c40_exact (ix : T → List Post.Posting) (ph : List (PhrasePart T)) (d : Int) (h : ∃ p, PhraseAt ix ph d p) (w : T) (offs : List Int) (ho : offs.Nodup) (hw : ∀ i ∈ offs, ⟨[w], i⟩ ∈ ph) :
    ∃ L : List Int, L.Nodup ∧ L.length = offs.length ∧ ∀ p ∈ L, TermAt ix w d p := by
  obtain ⟨p, hp⟩ := h
  refine ⟨offs.map (p + ·), ?_, by simp, fun x hx => ?_⟩
  · show (List.map _ _).Pairwise _
    rw [List.pairwise_map]
    exact ho.imp fun h e => h (by omega)
  · obtain ⟨i, hi, rfl⟩ := List.mem_map.1 hx
    obtain ⟨t, ht, h⟩ := hp _ (hw i hi)
    rw [List.mem_singleton] at ht
    subst ht
    exact h

/-- `"0 0 0"~4` in a document with `0` at 2, 3 and 9 and in one where it is only at 4: the first is found. -/
example : (do
    let s ← phwScorer (fun t : Nat => if t = 0 then [⟨1, 1, [4]⟩, ⟨2, 3, [2, 3, 9]⟩] else []) (fun f : List Int => f.length) (fun _ => 1) (⟨[⟨[0], 0⟩, ⟨[0], 1⟩, ⟨[0], 2⟩], 6⟩ : PhQ Nat)
    let s ← Res.ofOption s
    runStop (sloppyOps natArith anyOps isort (repeats [[0], [0], [0]]) 6) s [(.next, false), (.next, false)]) = .ok [some (2, none), none] := by rfl

example : List.Sublist [⟨[0], 0⟩, ⟨[0], 1⟩, ⟨[0], 2⟩] (⟨[⟨[0], 0⟩, ⟨[0], 1⟩, ⟨[0], 2⟩], 6⟩ : PhQ Nat).parts := .refl _

/-- `"0 0"~1` is found in a document where `0` is only once: the check for repeats in the first loop looks at the positions
before the previous one. -/
theorem c40_violated_single :
    let ix : Nat → List Post.Posting := fun t => if t = 0 then [⟨0, 1, [3]⟩] else []
    (∀ t, DocsOK (ix t)) ∧ (∀ p, TermAt ix 0 0 p ↔ p = 3) ∧ ((⟨[], 1⟩ : PhQ Nat).addTerm 0 1).addTerm 0 1 = ⟨[⟨[0], 0⟩, ⟨[0], 1⟩], 1⟩ ∧
    ∃ s, phwScorer ix (fun f : List Int => f.length) (fun _ => 1) (⟨[⟨[0], 0⟩, ⟨[0], 1⟩], 1⟩ : PhQ Nat) = .ok (some s) ∧
      runStop (sloppyOps natArith anyOps isort (repeats [[0], [0]]) 1) s [(.next, true)] = .ok [some (0, some 1)] := by
  refine ⟨fun t => ?_, fun p => ?_, rfl, _, rfl, rfl⟩
  · by_cases h : t = 0
    · simp only [h, if_true]
      exact ⟨List.pairwise_singleton _ _, by decide, by decide⟩
    · simp only [h, if_false]
      exact ⟨.nil, (fun _ h => nomatch h), (fun _ h => nomatch h)⟩
  · simp [TermAt]

#print axioms c40_repeated_partial
#print axioms c40_three_partial
#print axioms c40_exact
#print axioms c40_violated_single
end Ferret.Props
