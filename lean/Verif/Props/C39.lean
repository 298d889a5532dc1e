import Verif.Lemmas.PhraseQuery
import Verif.Props.C37

/-! C39: exact phrases. -/

namespace Ferret.Props
open Ferret.Scorer Ferret.Spec Ferret.Phrase

variable {S T : Type}

theorem starts_length {ix : T → List Post.Posting} {ph : List (PhrasePart T)} {d : Int} {L M : List Int} (hL : Starts ix ph d L) (hM : Starts ix ph d M) : L.length = M.length :=
  ((List.perm_ext_iff_of_nodup hL.1 hM.1).2 fun p => (hL.2 p).trans (hM.2 p).symm).length_eq

theorem distinct_strict {ix : T → List Post.Posting} (hix : ∀ t, DocsOK (ix t)) {ph : List (PhrasePart T)} (h : Distinct ix ph) {x : PhrasePart T} (hx : x ∈ ph) (d : Int) :
    (occAt (partDocs ix x) d).Pairwise (· < ·) := by
  have hok := partDocs_ok hix x
  have hle : (occAt (partDocs ix x) d).Pairwise (· ≤ ·) := by
    cases ho : occAt (partDocs ix x) d with
    | nil => exact .nil
    | cons a b =>
      obtain ⟨p, hp, hpd, _⟩ := occAt_some (l := partDocs ix x) (d := d) (x := a) (by rw [ho]; exact List.mem_cons_self ..)
      rw [← ho, ← hpd, occAt_mem hok.asc hp]
      exact hok.occ p hp
  have hnd1 : ∀ t ∈ x.terms, (occAt (ix t) d).Nodup := by
    intro t ht
    cases ho : occAt (ix t) d with
    | nil => exact .nil
    | cons a b =>
      obtain ⟨p, hp, hpd, _⟩ := occAt_some (l := ix t) (d := d) (x := a) (by rw [ho]; exact List.mem_cons_self ..)
      rw [← ho, ← hpd, occAt_mem (hix t).asc hp]
      exact h.1 x hx t ht p hp
  have hnd : (occAt (partDocs ix x) d).Nodup := by
    by_cases hd : d < 0
    · rw [neg_occAt hd]; exact .nil
    · unfold partDocs
      split
      · rename_i t ht
        exact hnd1 t (by rw [ht]; exact List.mem_singleton_self _)
      · rw [occAt_union (by omega), (sortInts_perm _).nodup_iff]
        unfold occsIn
        rw [List.Nodup, List.pairwise_flatMap, List.pairwise_map]
        refine ⟨fun l hl => ?_, ?_⟩
        · obtain ⟨t, ht, rfl⟩ := List.mem_map.1 hl
          exact hnd1 t ht
        · refine (h.2 x hx).imp fun {s t} hst a ha b hb hab => ?_
          subst hab
          exact hst d a ⟨(mem_occAt (hix s)).1 ha, (mem_occAt (hix t)).1 hb⟩
  exact (hle.and hnd).imp fun ⟨a, b⟩ => by omega

/-- The starts of a phrase can be listed. -/
theorem starts_exist {ix : T → List Post.Posting} (hix : ∀ t, DocsOK (ix t)) {ph : List (PhrasePart T)} (hq : ph ≠ []) (hd : Distinct ix ph) (d : Int) : ∃ L, Starts ix ph d L := by
  classical
  obtain ⟨x, hx⟩ := List.exists_mem_of_ne_nil _ hq
  have hs := distinct_strict hix hd hx d
  refine ⟨((occAt (partDocs ix x) d).map (· - x.offset)).filter fun p => decide (PhraseAt ix ph d p), ?_, fun p => ?_⟩
  · refine List.Pairwise.filter _ ?_
    rw [List.pairwise_map]
    exact hs.imp fun h e => by omega
  · rw [List.mem_filter, List.mem_map]
    simp only [decide_eq_true_eq]
    refine ⟨fun h => h.2, fun h => ⟨⟨p + x.offset, (mem_partDocs hix x).2 (h x hx), by omega⟩, h⟩⟩

theorem phraseAt_nonneg {ix : T → List Post.Posting} {ph : List (PhrasePart T)} (hq : ph ≠ []) {d : Int} (h : ∃ p, PhraseAt ix ph d p) : 0 ≤ d := by
  obtain ⟨x, hx⟩ := List.exists_mem_of_ne_nil _ hq
  obtain ⟨p, hp⟩ := h
  obtain ⟨t, _, y, _, hy, _⟩ := hp x hx
  omega

theorem exactVal_iff {ix : T → List Post.Posting} (hix : ∀ t, DocsOK (ix t)) (ph : List (PhrasePart T)) (d p : Int) :
    (∀ x ∈ ats d (keysOf ix ph), p + x.1 ∈ x.2) ↔ PhraseAt ix ph d p := by
  unfold ats keysOf PhraseAt
  rw [List.map_map]
  constructor
  · intro h x hx
    exact (mem_partDocs hix x).1 (h _ (List.mem_map_of_mem hx))
  · intro h y hy
    obtain ⟨x, hx, rfl⟩ := List.mem_map.1 hy
    exact (mem_partDocs hix x).2 (h x hx)

theorem exact_view {A : Arith S} {ix : T → List Post.Posting} (hix : ∀ t, DocsOK (ix t)) (q : PhQ T) (hq : q.parts ≠ []) (tfw : Nat → S) (norm : Int → S) :
    ∃ v : View S, IsPhrase (Distinct ix q.parts) A (fun _ => True) ExactVal (fun f => decide (f = 0)) tfw norm (keysOf ix q.parts) (fun d => ∃ p, PhraseAt ix q.parts d p) v ∧
      v.skips = true ∧ (∀ d, v.docs d = true ↔ ∃ p, PhraseAt ix q.parts d p) ∧
      (Distinct ix q.parts → ∀ d, (∃ p, PhraseAt ix q.parts d p) → ∃ L, Starts ix q.parts d L ∧ v.sc d = A.mul (tfw L.length) (norm d)) := by
  classical
  let n : Int → Nat := fun d => if h : ∃ L, Starts ix q.parts d L then h.choose.length else 0
  have hn : ∀ d L, Starts ix q.parts d L → n d = L.length := by
    intro d L hL
    have h : ∃ L, Starts ix q.parts d L := ⟨L, hL⟩
    show (if h : ∃ L, Starts ix q.parts d L then h.choose.length else 0) = _
    rw [dif_pos h]
    exact starts_length h.choose_spec hL
  let v : View S := ⟨fun d => decide (∃ p, PhraseAt ix q.parts d p), fun d => A.mul (tfw (n d)) (norm d), fun _ => 0, true⟩
  have hval : ∀ d f, ExactVal (ats d (keysOf ix q.parts)) f → (0 < f ↔ ∃ p, PhraseAt ix q.parts d p) := by
    intro d f h
    rw [h.1]
    exact ⟨fun ⟨p, hp⟩ => ⟨p, (exactVal_iff hix _ d p).1 hp⟩, fun ⟨p, hp⟩ => ⟨p, (exactVal_iff hix _ d p).2 hp⟩⟩
  have hstr : Distinct ix q.parts → ∀ d, ∀ x ∈ ats d (keysOf ix q.parts), x.2.Pairwise (· < ·) := by
    intro hd d x hx
    unfold ats keysOf at hx
    rw [List.map_map] at hx
    obtain ⟨y, hy, rfl⟩ := List.mem_map.1 hx
    exact distinct_strict hix hd hy d
  have hall : ∀ d, (∃ p, PhraseAt ix q.parts d p) → InAll (keysOf ix q.parts) d := by
    rintro d ⟨p, hp⟩ k hk
    obtain ⟨x, hx, rfl⟩ := List.mem_map.1 hk
    exact (in_partDocs hix x).2 ⟨_, hp x hx⟩
  have hstarts : ∀ d f, ExactVal (ats d (keysOf ix q.parts)) f → Distinct ix q.parts → ∃ L, Starts ix q.parts d L ∧ L.length = f := by
    intro d f h hd
    obtain ⟨L, l1, l2, l3⟩ := h.2 (hstr hd d)
    exact ⟨L, ⟨l1, fun p => (l3 p).trans (exactVal_iff hix _ d p)⟩, l2⟩
  refine ⟨v, ⟨?_, ?_, trivial, ?_, ?_, ?_, fun _ => rfl⟩, rfl, fun d => by simp [v], ?_⟩
  · intro h; exact hq (by simpa [keysOf] using h)
  · intro k hk
    obtain ⟨x, hx, rfl⟩ := List.mem_map.1 hk
    exact partDocs_ok hix x
  · intro d f h
    rw [← hval d f h]
    simp; omega
  · intro d
    simp only [v, decide_eq_true_eq]
    exact ⟨fun h => ⟨hall d h, h⟩, fun h => h.2⟩
  · intro hd d f h _
    obtain ⟨L, l1, l2⟩ := hstarts d f h hd
    show A.mul (tfw (n d)) (norm d) = _
    rw [hn d L l1, l2]
  · intro hd d hp
    obtain ⟨L, l1⟩ := starts_exist hix hq hd d
    exact ⟨L, l1, by show A.mul (tfw (n d)) (norm d) = _; rw [hn d L l1]⟩

/-- **C39.** For every index whose posting lists are in order, every phrase of at least one position (each with
any number of terms), whatever order `qsort` gives equal elements: the scorer exists, and any sequence of
`next` and `skip_to` calls (each jump past the current document) up to the first unsuccessful one, scores
asked for or not, visits what the same walk through the ascending list `M` visits. `M` has exactly the documents
in which the phrase occurs; the score of each is the weight of the number of places where it occurs times the
norm. The score is stated for positions without duplicates (`c39_violated_same_place` shows why). -/
theorem c39_exact_phrase_partial (A : Arith S) (ix : T → List Post.Posting) (hix : ∀ t, DocsOK (ix t)) (q : PhQ T) (hq : q.parts ≠ []) (tfw : Nat → S) (norm : Int → S)
    (qs : QSort (Tde ⊕ Mtdpe)) (hqs : Sorts qs) :
    ∃ s, phwScorer ix tfw norm q = .ok (some s) ∧
    ∃ M : List (Int × S), (M.map (·.1)).Pairwise (· < ·) ∧ (∀ d, d ∈ M.map (·.1) ↔ ∃ p, PhraseAt ix q.parts d p) ∧
      (Distinct ix q.parts → ∀ e ∈ M, ∃ L, Starts ix q.parts e.1 L ∧ e.2 = A.mul (tfw L.length) (norm e.1)) ∧
      ∀ moves : List (Move × Bool), ahead (-1) M (moves.map (·.1)) →
        ∃ out, runStop (exactOps A anyOps qs) s moves = .ok out ∧
          out.map (Option.map (·.1)) = (walkStop M (moves.map (·.1))).map (Option.map (·.1)) ∧
          (Distinct ix q.parts → out = ((walkStop M (moves.map (·.1))).zip (moves.map (·.2))).map fun p => p.1.map fun e => (e.1, if p.2 then some e.2 else none)) := by
  obtain ⟨v, hv, hsk, hdocs, hsc⟩ := exact_view (A := A) hix q hq tfw norm
  obtain ⟨s, h1, h2⟩ := phw_spec hix tfw norm q hq hv
  have g : Good (Distinct ix q.parts) (exactOps A anyOps qs) (phR _ A anyOk anyView (fun _ => True) ExactVal fun f => decide (f = 0)) :=
    good_phrase lawful_any hqs (freqOK_exact lawful_any hqs)
  obtain ⟨full, f1, f2⟩ := exists_full g h2
  have hmm : ((full.map fun d => (d, v.sc d)).map (·.1)) = full := by rw [List.map_map]; simp [Function.comp_def]
  refine ⟨s, h1, full.map fun d => (d, v.sc d), by rw [hmm]; exact f1, fun d => ?_, fun hd e he => ?_, fun moves ha => ?_⟩
  · rw [hmm, f2, hdocs]
    exact ⟨fun h => h.1, fun h => ⟨h, by have := phraseAt_nonneg hq h; omega⟩⟩
  · obtain ⟨d, hd', rfl⟩ := List.mem_map.1 he
    exact hsc hd d ((hdocs d).1 ((f2 d).1 hd').1)
  · obtain ⟨out, o1, o2, o3⟩ := runStop_spec g moves (full.map fun d => (d, v.sc d)) h2 hsk (by rw [hmm]; exact f1) (by rw [hmm]; exact f2)
      (fun _ e he => by obtain ⟨d, _, rfl⟩ := List.mem_map.1 he; rfl) ha
    exact ⟨out, o1, o2, o3⟩

/-- A sorting function: insertion sort. -/
def insertBy {ε : Type} (le : ε → ε → Bool) (x : ε) : List ε → List ε
  | [] => [x]
  | y :: l => if le x y then x :: y :: l else y :: insertBy le x l

def isort {ε : Type} (le : ε → ε → Bool) (l : List ε) : List ε := l.foldr (insertBy le) []

theorem insertBy_perm {ε : Type} (le : ε → ε → Bool) (x : ε) (l : List ε) : (insertBy le x l).Perm (x :: l) := by
  induction l with
  | nil => exact .refl _
  | cons y l ih =>
    rw [insertBy]
    split
    · exact .refl _
    · exact (ih.cons y).trans (.swap _ _ _)

theorem isort_perm {ε : Type} (le : ε → ε → Bool) (l : List ε) : (isort le l).Perm l := by
  induction l with
  | nil => exact .refl _
  | cons x l ih => exact (insertBy_perm le x _).trans (ih.cons x)

theorem isort_sorted {ε : Type} (le : ε → ε → Bool) (h1 : ∀ a b, le a b = true ∨ le b a = true) (h2 : ∀ a b c, le a b = true → le b c = true → le a c = true) (l : List ε) :
    (isort le l).Pairwise fun a b => le a b = true := by
  induction l with
  | nil => exact .nil
  | cons x l ih =>
    show (insertBy le x (isort le l)).Pairwise _
    revert ih
    generalize isort le l = m
    intro ih
    induction m with
    | nil => exact List.pairwise_singleton _ _
    | cons y m ihm =>
      obtain ⟨k1, k2⟩ := List.pairwise_cons.1 ih
      rw [insertBy]
      split
      · rename_i hxy
        refine List.pairwise_cons.2 ⟨fun z hz => ?_, ih⟩
        rcases List.mem_cons.1 hz with rfl | hz
        · exact hxy
        · exact h2 _ _ _ hxy (k1 z hz)
      · rename_i hxy
        refine List.pairwise_cons.2 ⟨fun z hz => ?_, ihm k2⟩
        rcases List.mem_cons.1 ((insertBy_perm le x m).mem_iff.1 hz) with rfl | hz
        · rcases h1 y z with h | h
          · exact h
          · exact absurd h hxy
        · exact k1 z hz

theorem sorts_isort {ε : Type} : Sorts (ε := ε) isort := fun le l h1 h2 => ⟨isort_perm le l, isort_sorted le h1 h2 l⟩

/-- The same, with equal elements ordered by descending offset. -/
def isortBack {ε : Type} : QSort ε := fun le l => isort le (isort (fun a b => decide (b.offset ≤ a.offset)) l)

theorem sorts_isortBack {ε : Type} : Sorts (ε := ε) isortBack :=
  fun le _ h1 h2 => ⟨(isort_perm le _).trans (isort_perm _ _), isort_sorted le h1 h2 _⟩

/-- Three terms: `0` at 1, 4, 9 and `1` at 2, 10 of document 3; `2` at 10 there; other documents. -/
def ix39 : Nat → List Post.Posting
  | 0 => [⟨0, 1, [5]⟩, ⟨3, 3, [1, 4, 9]⟩, ⟨7, 2, [0, 2]⟩, ⟨8, 1, [3]⟩]
  | 1 => [⟨0, 1, [4]⟩, ⟨3, 2, [2, 10]⟩, ⟨8, 1, [4]⟩]
  | 2 => [⟨3, 1, [5]⟩, ⟨7, 1, [1]⟩]
  | _ => []

theorem ix39_ok : ∀ t, DocsOK (ix39 t) := by
  intro t
  match t with
  | 0 => exact ⟨by decide, by decide, by decide⟩
  | 1 => exact ⟨by decide, by decide, by decide⟩
  | 2 => exact ⟨by decide, by decide, by decide⟩
  | _ + 3 => exact ⟨.nil, (fun _ h => nomatch h), (fun _ h => nomatch h)⟩

/-- The phrase `0 (1|2)`: three places in document 3. -/
def ph39 : PhQ Nat := ((⟨[], 0⟩ : PhQ Nat).addTerm 0 1).addTerm 1 1 |>.appendMulti 2

example : ph39 = ⟨[⟨[0], 0⟩, ⟨[1, 2], 1⟩], 0⟩ := by decide

example : (do
    let s ← phwScorer ix39 id (fun _ => 10) ph39
    let s ← Res.ofOption s
    runStop (exactOps natArith anyOps isort) s [(.next, true), (.skip 4, false), (.next, true), (.next, false)]) =
    .ok [some (3, some 30), some (7, none), some (8, some 10), none] := by rfl

example : Distinct ix39 ph39.parts := by
  refine ⟨by decide, fun x hx => ?_⟩
  have h : x = ⟨[0], 0⟩ ∨ x = ⟨[1, 2], 1⟩ := by simpa [ph39, PhQ.addTerm, PhQ.addTermAbs, PhQ.appendMulti] using hx
  rcases h with rfl | rfl
  · exact List.pairwise_singleton _ _
  · refine List.pairwise_cons.2 ⟨fun t ht d p h => ?_, List.pairwise_singleton _ _⟩
    rw [List.mem_singleton] at ht
    subst ht
    simp [TermAt, ix39] at h
    omega

/-- Boolean queries of exact phrases (and of terms, phrases of one position), any nesting the boolean scorer
handles (C36): exactly the documents for which the query holds, each phrase read as "occurs somewhere". -/
theorem c39_boolean_partial (A : Arith S) (ix : T → List Post.Posting) (hix : ∀ t, DocsOK (ix t)) (tfw : PhQ T → Nat → S) (norm : Int → S) (deleted : Int → Bool) (maxDoc : Nat) (allScore : S)
    (qs : QSort (Tde ⊕ Mtdpe)) (hqs : Sorts qs) (occurs : PhQ T → Int → Bool) (ho : ∀ ph d, occurs ph d = true ↔ ph.parts ≠ [] ∧ ∃ p, PhraseAt ix ph.parts d p)
    (q : BQuery (PhQ T)) (hq : q.shallow = true) :
    let env : Env (PhSc (Tde ⊕ Mtdpe) Nat S) S (PhQ T) := ⟨fun ph => match phwScorer ix (tfw ph) norm ph with | .ok (some s) => some s | _ => none, deleted, maxDoc, allScore⟩
    ∃ hits, searchEach A (exactOps A anyOps qs) env q = .ok hits ∧ (hits.map (·.1)).Pairwise (· < ·) ∧
      ∀ d, d ∈ hits.map (·.1) ↔ q.matches' occurs env.live d = true := by
  intro env
  have g : Good False (exactOps A anyOps qs) (phR False A anyOk anyView (fun _ => True) ExactVal fun f => decide (f = 0)) :=
    good_phrase lawful_any hqs (freqOK_exact lawful_any hqs)
  have hlv : ∀ ph : PhQ T, ∃ v : View S, (∀ d, v.docs d = occurs ph d) ∧
      (∀ s, env.mkLeaf ph = some s → phR False A anyOk anyView (fun _ => True) ExactVal (fun f => decide (f = 0)) s v (-1) false ∧ v.skips = true) ∧
      (env.mkLeaf ph = none → ∀ d, v.docs d = false) := by
    intro ph
    by_cases hp : ph.parts = []
    · refine ⟨⟨occurs ph, fun _ => A.zero, fun _ => 0, true⟩, fun _ => rfl, ?_⟩
      have : env.mkLeaf ph = none := by
        show (match phwScorer ix (tfw ph) norm ph with | .ok (some s) => some s | _ => none) = none
        unfold phwScorer; rw [hp]; rfl
      rw [this]
      refine ⟨(fun s h => nomatch h), fun _ d => ?_⟩
      show occurs ph d = false
      rw [← Bool.not_eq_true]
      exact fun ho' => absurd hp ((ho ph d).1 ho').1
    · obtain ⟨v, hv, hsk, hdocs, _⟩ := exact_view (A := A) hix ph hp (tfw ph) norm
      have hv' : IsPhrase False A (fun _ => True) ExactVal (fun f => decide (f = 0)) (tfw ph) norm (keysOf ix ph.parts) (fun d => ∃ p, PhraseAt ix ph.parts d p) v :=
        ⟨hv.ne, hv.docsOK, hv.pre, hv.val, hv.docs, fun h => h.elim, hv.cnt⟩
      obtain ⟨s, h1, h2⟩ := phw_spec hix (tfw ph) norm ph hp hv'
      refine ⟨v, fun d => ?_, ?_⟩
      · rw [Bool.eq_iff_iff, hdocs, ho]
        exact ⟨fun h => ⟨hp, h⟩, fun h => h.2⟩
      · have : env.mkLeaf ph = some s := by
          show (match phwScorer ix (tfw ph) norm ph with | .ok (some s) => some s | _ => none) = some s
          rw [h1]
        rw [this]
        exact ⟨fun s' hs' => by cases hs'; exact ⟨h2, hsk⟩, (fun h => nomatch h)⟩
  have hle : LeafOK (phR False A anyOk anyView (fun _ => True) ExactVal fun f => decide (f = 0)) env (fun ph => (hlv ph).choose) := by
    intro ph
    have h := (hlv ph).choose_spec.2
    cases hm : env.mkLeaf ph with
    | none => exact h.2 hm
    | some s => exact ⟨(h.1 s hm).1, fun _ => (h.1 s hm).2⟩
  obtain ⟨hits, h1, h2, h3, _⟩ := searchEach_spec (P := False) (A := A) (fun h => h.elim) g hle q hq
  have hocc : (fun ph => ((hlv ph).choose).docs) = occurs := by
    funext ph d; exact (hlv ph).choose_spec.1 d
  refine ⟨hits, h1, h2, fun d => ?_⟩
  rw [h3 d, hocc]
  refine ⟨fun h => h.1, fun h => ⟨h, matches_nonneg (D := occurs) (live := env.live) (fun ph hph => ?_) (fun hl => ?_) q h⟩⟩
  · have := (ho ph d).1 hph
    exact phraseAt_nonneg this.1 this.2
  · simp only [Env.live, Bool.and_eq_true, decide_eq_true_eq] at hl
    exact hl.1.1

/-- `+"0 1" -"0 2"` in `ix39`. -/
example : searchEach natArith (exactOps natArith anyOps isort)
    (⟨fun ph => match phwScorer ix39 id (fun _ => 10) ph with | .ok (some s) => some s | _ => none, fun _ => false, 9, 1⟩ : Env _ Nat (PhQ Nat))
    (.bool [(.must, .leaf ⟨[⟨[0], 0⟩, ⟨[1], 1⟩], 0⟩), (.mustNot, .leaf ⟨[⟨[0], 0⟩, ⟨[2], 1⟩], 0⟩)]) = .ok [(8, 10)] := by rfl

/-- With a position twice in a document (a token with position increment 0 whose term repeats, or the two
terms of one phrase position at one place) the frequency depends on the order `qsort` gives equal elements,
which the C standard leaves open: term `0` twice at 0, term `1` at 1. -/
def ix39dup : Nat → List Post.Posting
  | 0 => [⟨0, 2, [0, 0]⟩]
  | 1 => [⟨0, 1, [1]⟩]
  | _ => []

theorem c39_violated_same_place :
    (∀ t, DocsOK (ix39dup t)) ∧ Sorts (ε := Tde ⊕ Mtdpe) isort ∧ Sorts (ε := Tde ⊕ Mtdpe) isortBack ∧ Starts ix39dup [⟨[0], 0⟩, ⟨[1], 1⟩] 0 [0] ∧
    ∃ s, phwScorer ix39dup id (fun _ => 1) (⟨[⟨[0], 0⟩, ⟨[1], 1⟩], 0⟩ : PhQ Nat) = .ok (some s) ∧
      runStop (exactOps natArith anyOps isort) s [(.next, true)] = .ok [some (0, some 1)] ∧
      runStop (exactOps natArith anyOps isortBack) s [(.next, true)] = .ok [some (0, some 2)] := by
  refine ⟨fun t => ?_, sorts_isort, sorts_isortBack, ⟨by decide, fun p => ?_⟩, _, rfl, by rfl, by rfl⟩
  · match t with
    | 0 => exact ⟨by decide, by decide, by decide⟩
    | 1 => exact ⟨by decide, by decide, by decide⟩
    | _ + 2 => exact ⟨.nil, (fun _ h => nomatch h), (fun _ h => nomatch h)⟩
  · simp [PhraseAt, PartAt, TermAt, ix39dup]; omega

/-- Jumping an exhausted phrase scorer uses a closed enumerator (a NULL pointer), as does `next` after a first
jump that found nothing: hence calls up to the first unsuccessful one. -/
theorem c39_violated_after_end :
    ∃ s, phwScorer ix39 id (fun _ => 1) (⟨[⟨[0], 0⟩, ⟨[1], 1⟩], 0⟩ : PhQ Nat) = .ok (some s) ∧
      (∃ s1, phSkipTo anyOps isort (ephFreq anyOps isort) (fun f => decide (f = 0)) s 100 = .ok (false, s1) ∧
        phNext anyOps isort (ephFreq anyOps isort) (fun f => decide (f = 0)) s1 = .ub ∧
        phSkipTo anyOps isort (ephFreq anyOps isort) (fun f => decide (f = 0)) s1 100 = .ub) :=
  ⟨_, rfl, _, rfl, rfl, rfl⟩

#print axioms c39_exact_phrase_partial
#print axioms c39_boolean_partial
#print axioms c39_violated_same_place
#print axioms c39_violated_after_end
end Ferret.Props
