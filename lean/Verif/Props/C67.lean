import Verif.Lemmas.PhraseWalk
import Verif.Props.C39

/-! C67: sloppy phrases. -/

namespace Ferret.Props
open Ferret.Scorer Ferret.Spec Ferret.Phrase

variable {S T : Type}

theorem within_nonneg {ix : T → List Post.Posting} {ph : List (PhrasePart T)} (hq : ph ≠ []) {slop d : Int} (h : Within ix ph slop d) : 0 ≤ d := by
  obtain ⟨x, hx⟩ := List.exists_mem_of_ne_nil _ hq
  obtain ⟨lo, h⟩ := h
  obtain ⟨p, _, _, t, _, y, _, hy, _⟩ := h x hx
  omega

/-- A phrase that begins at its start, in documents numbered from 0. -/
def FromStart (ix : T → List Post.Posting) (ph : List (PhrasePart T)) : Prop :=
  ∃ x ∈ ph, x.offset ≤ 0 ∧ ∀ t ∈ x.terms, ∀ e ∈ ix t, ∀ p ∈ e.occ, 0 ≤ p

theorem fromStart_end {ix : T → List Post.Posting} {ph : List (PhrasePart T)} (h : FromStart ix ph) {lo w d : Int} (hw : ∀ x ∈ ph, ∃ p, p ≤ lo + w ∧ PartAt ix x d (p + x.offset)) : 0 ≤ lo + w := by
  obtain ⟨x, hx, ho, hp⟩ := h
  obtain ⟨p, p1, t, ht, e, he, _, hm⟩ := hw x hx
  have := hp t ht e he _ hm
  omega

theorem sloppy_iff {ix : T → List Post.Posting} (hix : ∀ t, DocsOK (ix t)) {ph : List (PhrasePart T)} (hs : FromStart ix ph) {slop d : Int} {f : List Int}
    (h : SloppyVal false slop (ats d (keysOf ix ph)) f) :
    (f ≠ [] ↔ Within ix ph slop d) ∧ (∀ k ∈ f, 0 ≤ k ∧ k ≤ slop ∧ Within ix ph k d) ∧ ∀ w, w ≤ slop → Within ix ph w d → ∃ k ∈ f, k ≤ w := by
  have h3 : ∀ w, w ≤ slop → Within ix ph w d → ∃ k ∈ f, k ≤ w := by
    intro w hw hwi
    obtain ⟨lo, w1, w2⟩ := within_window hix hwi
    exact h.2 rfl lo w (fromStart_end hs w2) hw w1
  have h2 : ∀ k ∈ f, 0 ≤ k ∧ k ≤ slop ∧ Within ix ph k d := by
    intro k hk
    obtain ⟨k1, k2, k3⟩ := h.1 k hk
    exact ⟨k1, k2, k3.within hix⟩
  refine ⟨⟨fun hf => ?_, fun hw => ?_⟩, h2, h3⟩
  · obtain ⟨k, hk⟩ := List.exists_mem_of_ne_nil _ hf
    obtain ⟨_, k2, lo, k3⟩ := h2 k hk
    exact ⟨lo, fun x hx => by obtain ⟨p, p1, p2, p3⟩ := k3 x hx; exact ⟨p, p1, by omega, p3⟩⟩
  · obtain ⟨k, hk, _⟩ := h3 slop (Int.le_refl _) hw
    exact List.ne_nil_of_mem hk

theorem sloppy_view {A : Arith S} {ix : T → List Post.Posting} (hix : ∀ t, DocsOK (ix t)) (q : PhQ T) (hq : 2 ≤ q.parts.length) (hs : FromStart ix q.parts) (tfw : List Int → S) (norm : Int → S) :
    ∃ v : View S, IsPhrase False A (fun ks => 2 ≤ ks.length) (SloppyVal false q.slop) (fun f => decide (f = [])) tfw norm (keysOf ix q.parts) (Within ix q.parts q.slop) v ∧
      v.skips = true ∧ ∀ d, v.docs d = true ↔ Within ix q.parts q.slop d := by
  classical
  refine ⟨⟨fun d => decide (Within ix q.parts q.slop d), fun _ => A.zero, fun _ => 0, true⟩, ⟨?_, ?_, ?_, ?_, ?_, fun h => h.elim, fun _ => rfl⟩, rfl, fun d => by simp⟩
  · intro h
    have := congrArg List.length h
    simp [keysOf] at this
    rw [this] at hq; simp at hq
  · intro k hk
    obtain ⟨x, hx, rfl⟩ := List.mem_map.1 hk
    exact partDocs_ok hix x
  · simpa [keysOf] using hq
  · intro d f h
    rw [← (sloppy_iff hix hs h).1]
    simp
  · intro d
    simp only [decide_eq_true_eq]
    refine ⟨fun h => ⟨?_, h⟩, fun h => h.2⟩
    obtain ⟨lo, h⟩ := h
    intro k hk
    obtain ⟨x, hx, rfl⟩ := List.mem_map.1 hk
    obtain ⟨p, _, _, hp⟩ := h x hx
    exact (in_partDocs hix x).2 ⟨_, hp⟩

/-- **C67.** For every index whose posting lists are in order, every sloppy phrase of at least two positions
without repeated terms that begins at offset 0 (as `phq_add_term` builds them) and every slop, whatever order
`qsort` gives equal elements: any sequence of `next` and `skip_to` calls (each jump past the current document) up to the first unsuccessful one visits
what the same walk through the ascending list `M` visits, and `M` has exactly the documents where the phrase
occurs within the slop. -/
theorem c67_sloppy_phrase_partial [DecidableEq T] (A : Arith S) (ix : T → List Post.Posting) (hix : ∀ t, DocsOK (ix t)) (q : PhQ T) (hq : 2 ≤ q.parts.length) (hs : FromStart ix q.parts)
    (hr : (q.parts.flatMap (·.terms)).Nodup) (tfw : List Int → S) (norm : Int → S) (qs : QSort (Tde ⊕ Mtdpe)) (hqs : Sorts qs) :
    ∃ s, phwScorer ix tfw norm q = .ok (some s) ∧
    ∃ M : List Int, M.Pairwise (· < ·) ∧ (∀ d, d ∈ M ↔ Within ix q.parts q.slop d) ∧
      ∀ moves : List (Move × Bool), ahead (-1) (M.map fun d => (d, ())) (moves.map (·.1)) →
        ∃ out, runStop (sloppyOps A anyOps qs (repeats (q.parts.map (·.terms))) q.slop) s moves = .ok out ∧
          out.map (Option.map (·.1)) = (walkStop (M.map fun d => (d, ())) (moves.map (·.1))).map (Option.map (·.1)) := by
  have hrep : repeats (q.parts.map (·.terms)) = false := by
    unfold repeats
    rw [← List.flatMap_def]
    simpa using hr
  rw [hrep]
  have hne : q.parts ≠ [] := by intro h; rw [h] at hq; simp at hq
  obtain ⟨v, hv, hsk, hdocs⟩ := sloppy_view (A := A) hix q hq hs tfw norm
  obtain ⟨s, h1, h2⟩ := phw_spec hix tfw norm q hne hv
  have g : Good False (sloppyOps A anyOps qs false q.slop) (phR _ A anyOk anyView (fun ks => 2 ≤ ks.length) (SloppyVal false q.slop) fun f => decide (f = [])) :=
    good_phrase lawful_any hqs (freqOK_sloppy lawful_any false q.slop)
  obtain ⟨full, f1, f2⟩ := exists_full g h2
  refine ⟨s, h1, full, f1, fun d => ?_, fun moves ha => ?_⟩
  · rw [f2, hdocs]
    exact ⟨fun h => h.1, fun h => ⟨h, by have := within_nonneg hne h; omega⟩⟩
  · have hm1 : ∀ {B : Type} (g : Int → B), ((full.map fun d => (d, g d)).map (·.1)) = full := by intro B g; rw [List.map_map]; simp [Function.comp_def]
    have key : ∀ (ms : List Move) (l : List Int) (c : Int) {B C : Type} (g : Int → B) (g' : Int → C), (ahead c (l.map fun d => (d, g d)) ms → ahead c (l.map fun d => (d, g' d)) ms) ∧
        (walkStop (l.map fun d => (d, g d)) ms).map (Option.map (·.1)) = (walkStop (l.map fun d => (d, g' d)) ms).map (Option.map (·.1)) := by
      intro ms
      induction ms with
      | nil => intro l c B C g g'; exact ⟨fun _ => trivial, rfl⟩
      | cons m ms ih =>
        intro l c B C g g'
        have hfrom : ∀ {B : Type} (g : Int → B), m.from (l.map fun d => (d, g d)) = (match m with | .next => l | .skip n => l.dropWhile fun d => decide (d < n)).map fun d => (d, g d) := by
          intro B g
          cases m with
          | next => rfl
          | skip n =>
            simp only [Move.from]
            rw [List.dropWhile_map]; rfl
        generalize (match m with | .next => l | .skip n => l.dropWhile fun d => decide (d < n)) = l' at hfrom
        simp only [ahead, walkStop]
        rw [hfrom g, hfrom g']
        cases l' with
        | nil => exact ⟨id, rfl⟩
        | cons d l' =>
          obtain ⟨i1, i2⟩ := ih l' d g g'
          exact ⟨fun h => ⟨h.1, i1 h.2⟩, by simp only [List.map_cons, Option.map_some]; rw [i2]⟩
    obtain ⟨out, o1, o2, _⟩ := runStop_spec g moves (full.map fun d => (d, v.sc d)) h2 hsk (by rw [hm1]; exact f1) (by rw [hm1]; exact f2)
      (fun h => h.elim) ((key _ _ _ _ _).1 ha)
    exact ⟨out, o1, o2.trans (key _ _ 0 _ _).2⟩

/-- Scores of sloppy phrases without repeated terms: however the scorer has come to a document, the score is the weight of
a list of match lengths times the norm. Each is the width of a window in which the phrase occurs, no longer
than the slop, and the shortest is that of the narrowest such window. -/
theorem c67_scores_partial [DecidableEq T] (A : Arith S) (ix : T → List Post.Posting) (hix : ∀ t, DocsOK (ix t)) (q : PhQ T) (hq : 2 ≤ q.parts.length) (hs : FromStart ix q.parts)
    (hr : (q.parts.flatMap (·.terms)).Nodup) (tfw : List Int → S) (norm : Int → S) (qs : QSort (Tde ⊕ Mtdpe)) (hqs : Sorts qs) :
    ∃ s, phwScorer ix tfw norm q = .ok (some s) ∧
    ∀ d t, Walked (sloppyOps A anyOps qs (repeats (q.parts.map (·.terms))) q.slop) s d t → 0 ≤ d →
      ∃ f : List Int, phScore A t = .ok (A.mul (tfw f) (norm d), 0, t) ∧ f ≠ [] ∧ (∀ k ∈ f, 0 ≤ k ∧ k ≤ q.slop ∧ Within ix q.parts k d) ∧
        ∀ w, Within ix q.parts w d → ∃ k ∈ f, k ≤ w := by
  have hrep : repeats (q.parts.map (·.terms)) = false := by
    unfold repeats
    rw [← List.flatMap_def]
    simpa using hr
  rw [hrep]
  have hne : q.parts ≠ [] := by intro h; rw [h] at hq; simp at hq
  obtain ⟨v, hv, _, _⟩ := sloppy_view (A := A) hix q hq hs tfw norm
  obtain ⟨s, h1, h2⟩ := phw_at (Val := SloppyVal false q.slop) (zero := fun f => decide (f = [])) hix tfw norm q hne
  refine ⟨s, h1, fun d t hw hd => ?_⟩
  obtain ⟨_, _, h5⟩ := walked_spec lawful_any hqs (freqOK_sloppy lawful_any false q.slop) hv.isPh h2 hw
  obtain ⟨_, f, f1, f2, f3⟩ := h5 hd
  obtain ⟨_, g2, g3⟩ := sloppy_iff hix hs f1
  have hf : f ≠ [] := by simpa using f2
  refine ⟨f, f3, hf, g2, fun w hw => ?_⟩
  by_cases hle : w ≤ q.slop
  · exact g3 w hle hw
  · obtain ⟨k, hk⟩ := List.exists_mem_of_ne_nil _ hf
    exact ⟨k, hk, by have := (g2 k hk).2.1; omega⟩

/-- Boolean queries of sloppy phrases: exactly the documents for which the query holds, each phrase read as "occurs
within its slop". -/
theorem c67_boolean_partial (A : Arith S) (ix : T → List Post.Posting) (hix : ∀ t, DocsOK (ix t)) (tfw : PhQ T → List Int → S) (norm : Int → S) (deleted : Int → Bool) (maxDoc : Nat) (allScore : S)
    (slop : Int) (qs : QSort (Tde ⊕ Mtdpe)) (hqs : Sorts qs) (occurs : {ph : List (PhrasePart T) // 2 ≤ ph.length ∧ FromStart ix ph ∧ (ph.flatMap (·.terms)).Nodup} → Int → Bool)
    (ho : ∀ ph d, occurs ph d = true ↔ Within ix ph.1 slop d)
    (q : BQuery {ph : List (PhrasePart T) // 2 ≤ ph.length ∧ FromStart ix ph ∧ (ph.flatMap (·.terms)).Nodup}) (hq : q.shallow = true) :
    let env : Env (PhSc (Tde ⊕ Mtdpe) (List Int) S) S {ph : List (PhrasePart T) // 2 ≤ ph.length ∧ FromStart ix ph ∧ (ph.flatMap (·.terms)).Nodup} :=
      ⟨fun ph => match phwScorer ix (tfw ⟨ph.1, slop⟩) norm ⟨ph.1, slop⟩ with | .ok (some s) => some s | _ => none, deleted, maxDoc, allScore⟩
    ∃ hits, searchEach A (sloppyOps A anyOps qs false slop) env q = .ok hits ∧ (hits.map (·.1)).Pairwise (· < ·) ∧
      ∀ d, d ∈ hits.map (·.1) ↔ q.matches' occurs env.live d = true := by
  intro env
  have g : Good False (sloppyOps A anyOps qs false slop) (phR False A anyOk anyView (fun ks => 2 ≤ ks.length) (SloppyVal false slop) fun f => decide (f = [])) :=
    good_phrase lawful_any hqs (freqOK_sloppy lawful_any false slop)
  have hne : ∀ ph : {ph : List (PhrasePart T) // 2 ≤ ph.length ∧ FromStart ix ph ∧ (ph.flatMap (·.terms)).Nodup}, ph.1 ≠ [] := by
    intro ph h
    have := ph.2.1
    rw [h] at this; simp at this
  have hlv : ∀ ph, ∃ v : View S, (∀ d, v.docs d = occurs ph d) ∧
      (∀ s, env.mkLeaf ph = some s → phR False A anyOk anyView (fun ks => 2 ≤ ks.length) (SloppyVal false slop) (fun f => decide (f = [])) s v (-1) false ∧ v.skips = true) ∧
      (env.mkLeaf ph = none → ∀ d, v.docs d = false) := by
    intro ph
    obtain ⟨v, hv, hsk, hdocs⟩ := sloppy_view (A := A) hix ⟨ph.1, slop⟩ ph.2.1 ph.2.2.1 (tfw ⟨ph.1, slop⟩) norm
    obtain ⟨s, h1, h2⟩ := phw_spec hix (tfw ⟨ph.1, slop⟩) norm ⟨ph.1, slop⟩ (hne ph) hv
    refine ⟨v, fun d => ?_, ?_⟩
    · rw [Bool.eq_iff_iff, hdocs, ho]
    · have : env.mkLeaf ph = some s := by
        show (match phwScorer ix (tfw ⟨ph.1, slop⟩) norm ⟨ph.1, slop⟩ with | .ok (some s) => some s | _ => none) = some s
        rw [h1]
      rw [this]
      exact ⟨fun s' hs' => by cases hs'; exact ⟨h2, hsk⟩, (fun h => nomatch h)⟩
  have hle : LeafOK (phR False A anyOk anyView (fun ks => 2 ≤ ks.length) (SloppyVal false slop) fun f => decide (f = [])) env (fun ph => (hlv ph).choose) := by
    intro ph
    have h := (hlv ph).choose_spec.2
    cases hm : env.mkLeaf ph with
    | none => exact h.2 hm
    | some s => exact ⟨(h.1 s hm).1, fun _ => (h.1 s hm).2⟩
  obtain ⟨hits, h1, h2, h3, _⟩ := searchEach_spec (P := False) (A := A) (fun h => h.elim) g hle q hq
  have hocc : (fun ph => ((hlv ph).choose).docs) = occurs := by
    funext ph d; exact (hlv ph).choose_spec.1 d
  refine ⟨hits, h1, h2, fun d => ?_⟩
  rw [h3 d, hocc]
  refine ⟨fun h => h.1, fun h => ⟨h, matches_nonneg (D := occurs) (live := env.live) (fun ph hph => ?_) (fun hl => ?_) q h⟩⟩
  · exact within_nonneg (hne ph) ((ho ph d).1 hph)
  · simp only [Env.live, Bool.and_eq_true, decide_eq_true_eq] at hl
    exact hl.1.1

/-- `"0 1"~2` in `ix39`: in document 0 in the other order (2 moves), in 3 (exactly, twice) and 8. Scores: the lengths
scored, one digit each. -/
example : FromStart ix39 [⟨[0], 0⟩, ⟨[1], 1⟩] ∧ (([⟨[0], 0⟩, ⟨[1], 1⟩] : List (PhrasePart Nat)).flatMap (·.terms)).Nodup := by
  refine ⟨⟨⟨[0], 0⟩, by simp, by decide, ?_⟩, by decide⟩
  intro t ht
  rw [List.mem_singleton] at ht
  subst ht
  decide

example : (do
    let s ← phwScorer ix39 (fun f : List Int => f.foldl (fun (a : Nat) (k : Int) => a * 10 + k.toNat) 1) (fun _ => 1) (⟨[⟨[0], 0⟩, ⟨[1], 1⟩], 2⟩ : PhQ Nat)
    let s ← Res.ofOption s
    runStop (sloppyOps natArith anyOps isort (repeats [[0], [1]]) 2) s [(.next, true), (.skip 1, true), (.next, true), (.next, false)]) =
    .ok [some (0, some 12), some (3, some 100), some (8, some 10), none] := by rfl

/-- Phrases built with `phq_add_term_abs` may begin at a later offset. Then the window must end at or after
position 0 of the document: the phrase `0 1` with offsets 2 and 3 and slop 1 is not found in the document that is
exactly `0 1`; without slop it is. -/
theorem c67_violated_later_offset :
    let ix : Nat → List Post.Posting := fun t => if t < 2 then [⟨0, 1, [t]⟩] else []
    let parts : List (PhrasePart Nat) := [⟨[0], 2⟩, ⟨[1], 3⟩]
    (∀ t, DocsOK (ix t)) ∧ PhraseAt ix parts 0 (-2) ∧ Within ix parts 1 0 ∧ ((⟨[], 1⟩ : PhQ Nat).addTermAbs 0 2).addTermAbs 1 3 = ⟨parts, 1⟩ ∧
    (∃ s, phwScorer ix (fun f : List Int => f.length) (fun _ => 1) (⟨parts, 1⟩ : PhQ Nat) = .ok (some s) ∧ runStop (sloppyOps natArith anyOps isort false 1) s [(.next, false)] = .ok [none]) ∧
    (∃ s, phwScorer ix id (fun _ => 1) (⟨parts, 0⟩ : PhQ Nat) = .ok (some s) ∧ runStop (exactOps natArith anyOps isort) s [(.next, false)] = .ok [some (0, none)]) := by
  refine ⟨fun t => ?_, ?_, ⟨-2, ?_⟩, rfl, ⟨_, rfl, rfl⟩, ⟨_, rfl, rfl⟩⟩
  · by_cases h : t < 2
    · simp only [h, if_true]
      exact ⟨List.pairwise_singleton _ _, by intro p hp; simp at hp; subst hp; simp, by intro p hp; simp at hp; subst hp; simp⟩
    · simp only [h, if_false]
      exact ⟨.nil, (fun _ h => nomatch h), (fun _ h => nomatch h)⟩
  · intro x hx
    simp at hx
    rcases hx with rfl | rfl <;> exact ⟨_, List.mem_singleton_self _, ⟨0, 1, _⟩, List.mem_singleton_self _, rfl, by simp⟩
  · intro x hx
    simp at hx
    rcases hx with rfl | rfl <;> exact ⟨-2, by omega, by omega, _, List.mem_singleton_self _, ⟨0, 1, _⟩, List.mem_singleton_self _, rfl, by simp⟩

/-- A sloppy phrase of one position (which `phq_rewrite` would have replaced) takes the first of an empty
queue: a NULL pointer. -/
theorem c67_violated_one_position :
    ∃ s, phwScorer ix39 (fun f : List Int => f.length) (fun _ => 1) (⟨[⟨[0], 0⟩], 1⟩ : PhQ Nat) = .ok (some s) ∧
      phNext anyOps isort (sphFreq anyOps false 1) (fun f => decide (f = [])) s = .ub := ⟨_, rfl, rfl⟩

/-- With repeated terms what is found depends on the way there. The phrase `0 1 0` with slop 1 and a document
`0 x 0 1 0`, in which it occurs as it stands: `next` finds the document, if one before it has the term `0`; a jump to the document does not. -/
theorem c67_violated_repeats :
    let ix : Nat → List Post.Posting := fun t => if t = 0 then [⟨0, 1, [0]⟩, ⟨1, 3, [0, 2, 4]⟩] else if t = 1 then [⟨1, 1, [3]⟩] else []
    let parts : List (PhrasePart Nat) := [⟨[0], 0⟩, ⟨[1], 1⟩, ⟨[0], 2⟩]
    (∀ t, DocsOK (ix t)) ∧ PhraseAt ix parts 1 2 ∧
    ∃ s, phwScorer ix (fun f : List Int => f.length) (fun _ => 1) (⟨parts, 1⟩ : PhQ Nat) = .ok (some s) ∧
      runStop (sloppyOps natArith anyOps isort (repeats (parts.map (·.terms))) 1) s [(.next, false)] = .ok [some (1, none)] ∧
      runStop (sloppyOps natArith anyOps isort (repeats (parts.map (·.terms))) 1) s [(.skip 1, false)] = .ok [none] := by
  refine ⟨fun t => ?_, ?_, _, rfl, rfl, rfl⟩
  · match t with
    | 0 => exact ⟨by decide, by decide, by decide⟩
    | 1 => exact ⟨by decide, by decide, by decide⟩
    | _ + 2 => exact ⟨.nil, (fun _ h => nomatch h), (fun _ h => nomatch h)⟩
  · intro x hx
    simp at hx
    rcases hx with rfl | rfl | rfl
    · exact ⟨0, List.mem_singleton_self _, ⟨1, 3, [0, 2, 4]⟩, by decide, rfl, by decide⟩
    · exact ⟨1, List.mem_singleton_self _, ⟨1, 1, [3]⟩, by decide, rfl, by decide⟩
    · exact ⟨0, List.mem_singleton_self _, ⟨1, 3, [0, 2, 4]⟩, by decide, rfl, by decide⟩

#print axioms c67_sloppy_phrase_partial
#print axioms c67_scores_partial
#print axioms c67_boolean_partial
#print axioms c67_violated_later_offset
#print axioms c67_violated_one_position
#print axioms c67_violated_repeats
end Ferret.Props
