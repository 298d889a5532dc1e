import Verif.Lemmas.MarksSloppy
import Verif.Props.C43

/-! C85: what is marked by highlighting is what the query asks for. -/

namespace Ferret.Props

open Ferret Ferret.Spec Ferret.Marks
open Ferret.Expand (Term Range Scan typedBounds typedCond)
open Ferret.MV (MV mvNew)

/-- What a typed range needs of the words of a field: if its bounds are numbers, no word from which no number can be read is
as long as a bound or as a number that is read from a word. -/
def NoStale (scan : Scan) (terms : List (Term × List Int)) (r : Range) : Prop :=
  NumBounds scan r → ∀ x ∈ terms, scan x.1 = none → (∀ t, r.lower = some t ∨ r.upper = some t → x.1.length ≠ t.length) ∧
    ∀ y ∈ terms, ∀ v n, scan y.1 = some (v, n) → x.1.length ≠ n

mutual
/-- What the queries need: a range has a bound, a phrase has parts, a sloppy phrase has two parts and one of them is not moved
forward. -/
def Markable {F : Type} (scan : Scan) (tv : TV F) : MQ F → Prop
  | .numRange f r => f = tv.field → (r.lower ≠ none ∨ r.upper ≠ none) ∧ NoStale scan tv.terms r
  | .phrase f parts slop => f = tv.field → parts ≠ [] ∧ (0 < slop → 2 ≤ parts.length ∧ ∃ x ∈ parts, x.offset ≤ 0)
  | .bool cs => MarkableAll scan tv cs
  | _ => True
/-- The clauses that are not prohibited. -/
def MarkableAll {F : Type} (scan : Scan) (tv : TV F) : MClauses F → Prop
  | .nil => True
  | .cons p q cs => (p = false → Markable scan tv q) ∧ MarkableAll scan tv cs
end

/-- The ranges that are marked are asked for, and show all that is asked for. -/
def MarkedBy {F : Type} (scan : Scan) (tv : TV F) (q : MQ F) (L : List (Int × Int)) : Prop :=
  (∀ a b, (a, b) ∈ L → MayMark scan (wordsOf tv.terms) tv.field q a b) ∧ MarksAll scan (wordsOf tv.terms) tv.field L q

theorem numBounds_iff (scan : Scan) (r : Range) : (∃ l u len, typedBounds scan r = some (l, u, len)) ↔ NumBounds scan r := by
  obtain ⟨lower, upper, il, iu⟩ := r
  unfold NumBounds IsNum typedBounds
  cases lower with
  | none =>
    cases upper with
    | none => simp
    | some u =>
      simp only
      cases hs : scan u with
      | none => simp [hs]
      | some x =>
        obtain ⟨v, n⟩ := x
        by_cases hn : n = u.length <;> simp [hs, hn]
  | some l =>
    simp only
    cases hl : scan l with
    | none => simp [hl]
    | some y =>
      obtain ⟨w, m⟩ := y
      by_cases hm : m = l.length
      · cases upper with
        | none => simp [hl, hm]
        | some u =>
          simp only
          cases hs : scan u with
          | none => simp [hl, hm, hs]
          | some x =>
            obtain ⟨v, n⟩ := x
            by_cases hn : n = u.length <;> simp [hl, hm, hs, hn]
      · simp [hl, hm]

theorem typedBounds_len {scan : Scan} {r : Range} {l u : Int} {len : Nat} (h : typedBounds scan r = some (l, u, len)) (hb : r.lower ≠ none ∨ r.upper ≠ none) :
    ∃ t, (r.lower = some t ∨ r.upper = some t) ∧ len = t.length := by
  obtain ⟨lower, upper, il, iu⟩ := r
  simp only at hb ⊢
  unfold typedBounds at h
  cases upper with
  | some t =>
    refine ⟨t, Or.inr rfl, ?_⟩
    cases lower with
    | none =>
      simp only at h
      cases hs : scan t with
      | none => simp [hs] at h
      | some x =>
        obtain ⟨v, n⟩ := x
        by_cases hn : n = t.length
        · simp [hs, hn] at h; exact h.2.2.symm
        · simp [hs, hn] at h
    | some s =>
      simp only at h
      cases hl : scan s with
      | none => simp [hl] at h
      | some y =>
        obtain ⟨w, m⟩ := y
        by_cases hm : m = s.length
        · cases hs : scan t with
          | none => simp [hl, hm, hs] at h
          | some x =>
            obtain ⟨v, n⟩ := x
            by_cases hn : n = t.length
            · simp [hl, hm, hs, hn] at h; exact h.2.2.symm
            · simp [hl, hm, hs, hn] at h
        · simp [hl, hm] at h
  | none =>
    cases lower with
    | none => simp at hb
    | some s =>
      refine ⟨s, Or.inl rfl, ?_⟩
      simp only at h
      cases hl : scan s with
      | none => simp [hl] at h
      | some y =>
        obtain ⟨w, m⟩ := y
        by_cases hm : m = s.length
        · simp [hl, hm] at h; exact h.2.2.symm
        · simp [hl, hm] at h

theorem numMatch_spec {scan : Scan} {terms : List (Term × List Int)} (h : InOrder terms) {r : Range} (hb : r.lower ≠ none ∨ r.upper ≠ none) (hs : NoStale scan terms r) (mv : MV) :
    ∃ mv' L, numMatch scan terms r mv = .ok mv' ∧ Added mv mv' L ∧ ∀ a b, (a, b) ∈ L ↔ a = b ∧ ∃ t, Typed scan r t ∧ wordsOf terms t a := by
  unfold numMatch
  cases ht : typedBounds scan r with
  | none =>
    have hn : ¬ NumBounds scan r := fun hc => by
      obtain ⟨l, u, len, he⟩ := (numBounds_iff scan r).2 hc
      rw [ht] at he; cases he
    obtain ⟨mv', L, h1, h2, h3⟩ := rangeMatch_spec h r mv
    refine ⟨mv', L, h1, h2, fun a b => ?_⟩
    rw [h3]
    simp only [Typed, hn, not_false_eq_true, forall_const, false_implies, true_and]
  | some x =>
    obtain ⟨l, u, len⟩ := x
    have hn : NumBounds scan r := (numBounds_iff scan r).1 ⟨l, u, len, ht⟩
    simp only
    rw [if_neg (by
      rintro ⟨h1, h2⟩
      rw [Option.isNone_iff_eq_none] at h1 h2
      rcases hb with h | h
      · exact h h1
      · exact h h2)]
    obtain ⟨t, ht1, ht2⟩ := typedBounds_len ht hb
    obtain ⟨l', u', len', e1, e2⟩ := typedBounds_some scan r hn.1 hn.2
    rw [ht] at e1; cases e1
    obtain ⟨mv', L, h1, h2, h3⟩ := numGo_spec scan (typedCond r l u) terms.reverse len mv (by
      intro x hx hx0
      obtain ⟨g1, g2⟩ := hs hn x (List.mem_reverse.1 hx) hx0
      exact ⟨by rw [ht2]; exact g1 t ht1, fun y hy => g2 y (List.mem_reverse.1 hy)⟩)
    refine ⟨mv', L, h1, h2, fun a b => ?_⟩
    rw [h3]
    have hw : ∀ s p, wordsOf terms.reverse s p ↔ wordsOf terms s p := by
      intro s p; simp [wordsOf]
    constructor
    · rintro ⟨rfl, s, v, i1, i2, i3⟩
      exact ⟨rfl, s, ⟨fun _ => ⟨v, i1, (e2 v).1 i2⟩, fun hc => absurd hn hc⟩, (hw s a).1 i3⟩
    · rintro ⟨rfl, s, ⟨i1, _⟩, i3⟩
      obtain ⟨v, j1, j2⟩ := i1 hn
      exact ⟨rfl, s, v, j1, (e2 v).2 j2, (hw s a).2 i3⟩

theorem phraseMatch_spec {qs : List (PhrasePart Term) → List (PhrasePart Term)} (hqs : SortsParts qs) {terms : List (Term × List Int)} (hf : Fine terms) {parts : List (PhrasePart Term)} {slop : Int}
    (hne : parts ≠ []) (hsl : 0 < slop → 2 ≤ parts.length ∧ ∃ x ∈ parts, x.offset ≤ 0) (mv : MV) :
    ∃ mv' L, phraseMatch qs terms parts slop mv = .ok mv' ∧ Added mv mv' L ∧
      (∀ a b, (a, b) ∈ L → ∃ c lo, Choice (wordsOf terms) parts c lo (lo + max slop 0) ∧ MarkEnds parts c a b) ∧
      ∀ c lo hi, hi ≤ lo + max slop 0 → Choice (wordsOf terms) parts c lo hi → ∃ c' a b, Choice (wordsOf terms) parts c' lo hi ∧ MarkEnds parts c' a b ∧ (a, b) ∈ L := by
  unfold phraseMatch
  by_cases hs : slop > 0
  · rw [if_pos hs, show max slop 0 = slop by omega]
    obtain ⟨h1, h2⟩ := hsl hs
    exact sloppyMatch_spec hf h1 h2 slop mv
  · rw [if_neg hs, show max slop 0 = 0 by omega]
    obtain ⟨mv', L, h1, h2, x, hx, y, hy, h3, h4⟩ := exactMatch_spec hqs hf hne mv
    obtain ⟨i, hi⟩ := List.getElem?_of_mem hx
    obtain ⟨j, hj⟩ := List.getElem?_of_mem hy
    have hends : ∀ p : Int, MarkEnds parts (fun _ => p) (p + x.offset) (p + y.offset) := by
      intro p
      refine ⟨⟨i, x, hi, rfl⟩, ⟨j, y, hj, rfl⟩, fun k z hz => ?_⟩
      have := h3 z (List.mem_of_getElem? hz)
      show p + x.offset ≤ p + z.offset ∧ p + z.offset ≤ p + y.offset
      omega
    have hch : ∀ p : Int, At terms parts p → Choice (wordsOf terms) parts (fun _ => p) p p :=
      fun p hp k z hz => ⟨Int.le_refl _, Int.le_refl _, hp z (List.mem_of_getElem? hz)⟩
    refine ⟨mv', L, h1, h2, fun a b hab => ?_, fun c lo hi' hlh hc => ?_⟩
    · obtain ⟨p, hp, rfl, rfl⟩ := (h4 a b).1 hab
      refine ⟨fun _ => p, p, ?_, hends p⟩
      rw [Int.add_zero]
      exact hch p hp
    · have hcl : ∀ k z, parts[k]? = some z → c k = lo := by
        intro k z hz
        obtain ⟨g1, g2, _⟩ := hc k z hz
        omega
      have hlo : lo = hi' := by
        obtain ⟨g1, g2, _⟩ := hc i x hi
        omega
      have hat : At terms parts lo := by
        intro z hz
        obtain ⟨k, hk⟩ := List.getElem?_of_mem hz
        have := (hc k z hk).2.2
        rw [hcl k z hk] at this
        exact this
      subst hlo
      exact ⟨fun _ => lo, _, _, hch lo hat, hends lo, (h4 _ _).2 ⟨lo, hat, rfl, rfl⟩⟩

mutual
theorem marksAll_mono {F : Type} {scan : Scan} {words : Term → Int → Prop} {fld : F} {L M : List (Int × Int)} (h : ∀ x ∈ L, x ∈ M) : ∀ q : MQ F, MarksAll scan words fld L q → MarksAll scan words fld M q
  | .term f t, hq => by simp only [MarksAll] at hq ⊢; exact fun hf a ha => h _ (hq hf a ha)
  | .anyOf f ts, hq => by simp only [MarksAll] at hq ⊢; exact fun hf t ht a ha => h _ (hq hf t ht a ha)
  | .range f r, hq => by simp only [MarksAll] at hq ⊢; exact fun hf t a h1 ha => h _ (hq hf t a h1 ha)
  | .numRange f r, hq => by simp only [MarksAll] at hq ⊢; exact fun hf t a h1 ha => h _ (hq hf t a h1 ha)
  | .phrase f parts slop, hq => by
    simp only [MarksAll] at hq ⊢
    intro hf c lo hi h1 h2
    obtain ⟨c', a, b, g1, g2, g3⟩ := hq hf c lo hi h1 h2
    exact ⟨c', a, b, g1, g2, h _ g3⟩
  | .bool cs, hq => by simp only [MarksAll] at hq ⊢; exact allMark_mono h cs hq
  | .other, _ => by simp only [MarksAll]
theorem allMark_mono {F : Type} {scan : Scan} {words : Term → Int → Prop} {fld : F} {L M : List (Int × Int)} (h : ∀ x ∈ L, x ∈ M) : ∀ cs : MClauses F, AllMark scan words fld L cs → AllMark scan words fld M cs
  | .nil, _ => by simp only [AllMark]
  | .cons p q cs, hq => by
    simp only [AllMark] at hq ⊢
    exact ⟨fun hp => marksAll_mono h q (hq.1 hp), allMark_mono h cs hq.2⟩
end

mutual
theorem getMatchv_spec {F : Type} [DecidableEq F] (scan : Scan) {qs : List (PhrasePart Term) → List (PhrasePart Term)} (hqs : SortsParts qs) {tv : TV F} (hf : Fine tv.terms) : ∀ (q : MQ F), Markable scan tv q → ∀ mv : MV,
    ∃ mv' L, getMatchv scan qs tv q mv = .ok mv' ∧ Added mv mv' L ∧ MarkedBy scan tv q L
  | .term f t, _, mv => by
    simp only [getMatchv, MarkedBy, MayMark, MarksAll]
    by_cases h : tv.field = f
    · rw [if_pos h]
      obtain ⟨mv', L, h1, h2, h3⟩ := termMatch_spec hf.order t mv
      exact ⟨mv', L, h1, h2, fun a b hab => ⟨h.symm, (h3 a b).1 hab⟩, fun _ a ha => (h3 a a).2 ⟨rfl, ha⟩⟩
    · rw [if_neg h]
      exact ⟨mv, [], rfl, Added.refl mv, (fun a b hab => by cases hab), fun he => absurd he.symm h⟩
  | .anyOf f ts, _, mv => by
    simp only [getMatchv, MarkedBy, MayMark, MarksAll]
    by_cases h : tv.field = f
    · rw [if_pos h]
      obtain ⟨mv', L, h1, h2, h3⟩ := multiMatch_spec hf.order ts.reverse mv
      simp only [List.mem_reverse] at h3
      exact ⟨mv', L, h1, h2, fun a b hab => ⟨h.symm, (h3 a b).1 hab⟩, fun _ t ht a ha => (h3 a a).2 ⟨rfl, t, ht, ha⟩⟩
    · rw [if_neg h]
      exact ⟨mv, [], rfl, Added.refl mv, (fun a b hab => by cases hab), fun he => absurd he.symm h⟩
  | .range f r, _, mv => by
    simp only [getMatchv, MarkedBy, MayMark, MarksAll]
    by_cases h : tv.field = f
    · rw [if_pos h]
      obtain ⟨mv', L, h1, h2, h3⟩ := rangeMatch_spec hf.order r mv
      exact ⟨mv', L, h1, h2, fun a b hab => ⟨h.symm, (h3 a b).1 hab⟩, fun _ t a ht ha => (h3 a a).2 ⟨rfl, t, ht, ha⟩⟩
    · rw [if_neg h]
      exact ⟨mv, [], rfl, Added.refl mv, (fun a b hab => by cases hab), fun he => absurd he.symm h⟩
  | .numRange f r, hq, mv => by
    simp only [getMatchv, MarkedBy, MayMark, MarksAll]
    by_cases h : tv.field = f
    · rw [if_pos h]
      simp only [Markable] at hq
      obtain ⟨mv', L, h1, h2, h3⟩ := numMatch_spec hf.order (hq h.symm).1 (hq h.symm).2 mv
      exact ⟨mv', L, h1, h2, fun a b hab => ⟨h.symm, (h3 a b).1 hab⟩, fun _ t a ht ha => (h3 a a).2 ⟨rfl, t, ht, ha⟩⟩
    · rw [if_neg h]
      exact ⟨mv, [], rfl, Added.refl mv, (fun a b hab => by cases hab), fun he => absurd he.symm h⟩
  | .phrase f parts slop, hq, mv => by
    simp only [getMatchv, MarkedBy, MayMark, MarksAll]
    by_cases h : tv.field = f
    · rw [if_pos h]
      simp only [Markable] at hq
      obtain ⟨mv', L, h1, h2, h3, h4⟩ := phraseMatch_spec hqs hf (hq h.symm).1 (hq h.symm).2 mv
      exact ⟨mv', L, h1, h2, fun a b hab => ⟨h.symm, h3 a b hab⟩, fun _ => h4⟩
    · rw [if_neg h]
      exact ⟨mv, [], rfl, Added.refl mv, (fun a b hab => by cases hab), fun he => absurd he.symm h⟩
  | .bool cs, hq, mv => by
    simp only [Markable] at hq
    simp only [getMatchv, MarkedBy, MayMark, MarksAll]
    exact getMatchvs_spec scan hqs hf cs hq mv
  | .other, _, mv => by
    simp only [getMatchv, MarkedBy, MayMark, MarksAll]
    exact ⟨mv, [], rfl, Added.refl mv, (fun a b hab => by cases hab), trivial⟩
theorem getMatchvs_spec {F : Type} [DecidableEq F] (scan : Scan) {qs : List (PhrasePart Term) → List (PhrasePart Term)} (hqs : SortsParts qs) {tv : TV F} (hf : Fine tv.terms) : ∀ (cs : MClauses F), MarkableAll scan tv cs → ∀ mv : MV,
    ∃ mv' L, getMatchvs scan qs tv cs mv = .ok mv' ∧ Added mv mv' L ∧
      (∀ a b, (a, b) ∈ L → AnyMay scan (wordsOf tv.terms) tv.field cs a b) ∧ AllMark scan (wordsOf tv.terms) tv.field L cs
  | .nil, _, mv => by
    simp only [getMatchvs, AnyMay, AllMark]
    exact ⟨mv, [], rfl, Added.refl mv, (fun a b hab => by cases hab), trivial⟩
  | .cons p q cs, hq, mv => by
    simp only [MarkableAll] at hq
    obtain ⟨m1, L1, h1, h2, h3, h4⟩ := getMatchvs_spec scan hqs hf cs hq.2 mv
    simp only [getMatchvs, AnyMay, AllMark, h1, Res.ok_bind]
    cases p with
    | true =>
      simp only [if_true]
      exact ⟨m1, L1, rfl, h2, fun a b hab => Or.inr (h3 a b hab), (fun h => by cases h), h4⟩
    | false =>
      simp only [Bool.false_eq_true, if_false]
      obtain ⟨m2, L2, g1, g2, g3, g4⟩ := getMatchv_spec scan hqs hf q (hq.1 rfl) m1
      refine ⟨m2, L1 ++ L2, g1, h2.trans g2, fun a b hab => ?_, fun _ => marksAll_mono (fun x hx => List.mem_append_right _ hx) q g4, allMark_mono (fun x hx => List.mem_append_left _ hx) cs h4⟩
      rcases List.mem_append.1 hab with h | h
      · exact Or.inr (h3 a b h)
      · exact Or.inl ⟨trivial, g3 a b h⟩
end

/-- **C85 (partial).** The ranges of positions that a query marks in a field are exactly what the query asks for: every range
that is added is a word, a phrase or a number that a clause which is not prohibited asks for, and all that is asked for is
marked. A range for a sloppy phrase is from the first to the last of words for all its parts, which are within the slop; for
every such choice of words a range is marked whose words are in the same window.

Missing: typed ranges in fields with words as long as a number (`C85_words_for_numbers`), phrases without parts
(`C85_no_parts`), sloppy phrases with one part (`C85_one_part`) or all of whose parts are moved forward (`C85_moved`). -/
theorem C85_marks_partial {F : Type} [DecidableEq F] (scan : Scan) (qs : List (PhrasePart Term) → List (PhrasePart Term)) (hqs : SortsParts qs) (tv : TV F) (hf : Fine tv.terms) (q : MQ F)
    (hq : Markable scan tv q) :
    ∃ mv L, getMatchv scan qs tv q mvNew = .ok mv ∧ mv.matches_ = L.map (fun r => ⟨r.1, r.2, 1⟩) ∧ mv.size = L.length ∧ MarkedBy scan tv q L := by
  obtain ⟨mv, L, h1, h2, h3⟩ := getMatchv_spec scan hqs hf q hq mvNew
  refine ⟨mv, L, h1, ?_, ?_, h3⟩
  · rw [h2]; simp [mvNew]
  · rw [h2]; simp [mvNew]

/-- A part put before the first part with a larger offset. -/
def insertPart (x : PhrasePart Term) : List (PhrasePart Term) → List (PhrasePart Term)
  | [] => [x]
  | y :: ys => if x.offset ≤ y.offset then x :: y :: ys else y :: insertPart x ys

/-- Sorting by insertion. -/
def sortParts (l : List (PhrasePart Term)) : List (PhrasePart Term) := l.foldr insertPart []

theorem insertPart_perm (x : PhrasePart Term) : ∀ l, List.Perm (insertPart x l) (x :: l)
  | [] => List.Perm.refl _
  | y :: ys => by
    rw [insertPart]
    split
    · exact List.Perm.refl _
    · exact ((insertPart_perm x ys).cons y).trans (List.Perm.swap x y ys)

theorem insertPart_sorted (x : PhrasePart Term) : ∀ l : List (PhrasePart Term), l.Pairwise (fun a b => a.offset ≤ b.offset) → (insertPart x l).Pairwise (fun a b => a.offset ≤ b.offset)
  | [], _ => by simp [insertPart]
  | y :: ys, h => by
    rw [List.pairwise_cons] at h
    rw [insertPart]
    split
    · rename_i hxy
      refine List.pairwise_cons.2 ⟨fun z hz => ?_, List.pairwise_cons.2 h⟩
      rcases List.mem_cons.1 hz with rfl | hz
      · exact hxy
      · exact Int.le_trans hxy (h.1 z hz)
    · rename_i hxy
      refine List.pairwise_cons.2 ⟨fun z hz => ?_, insertPart_sorted x ys h.2⟩
      rcases List.mem_cons.1 ((insertPart_perm x ys).mem_iff.1 hz) with rfl | hz
      · omega
      · exact h.1 z hz

theorem sortParts_sorts : SortsParts sortParts := by
  intro l
  induction l with
  | nil => exact ⟨List.Perm.refl _, List.Pairwise.nil⟩
  | cons x l ih => exact ⟨(insertPart_perm x _).trans (ih.1.cons x), insertPart_sorted x _ ih.2⟩

/-- The text "b a 12 a b": `a` at 1 and 3, `b` at 0 and 4, `12` at 2. -/
def abText : TV Nat := ⟨0, [([49, 50], [2]), ([97], [1, 3]), ([98], [0, 4])]⟩

theorem abText_fine : Fine abText.terms := by
  refine ⟨?_, ?_⟩
  · unfold InOrder abText; decide
  · unfold abText; decide

/-- `"a b"~2 OR "a b" OR [10 20] NOT b`. -/
def abQuery : MQ Nat :=
  .bool (.cons false (.phrase 0 [⟨[[97]], 0⟩, ⟨[[98]], 1⟩] 2) (.cons false (.phrase 0 [⟨[[98]], 1⟩, ⟨[[97]], 0⟩] 0)
    (.cons false (.numRange 0 ⟨some [49, 48], some [50, 48], true, true⟩) (.cons true (.term 0 [98]) .nil))))

theorem abQuery_markable : Markable scanDigits abText abQuery := by
  simp only [abQuery, Markable, MarkableAll, abText]
  refine ⟨fun _ _ => ⟨by simp, fun _ => ⟨by simp, ⟨_, List.mem_cons_self .., by simp⟩⟩⟩, fun _ _ => ⟨by simp, by simp⟩, fun _ _ => ⟨by simp, fun _ => ?_⟩, by simp⟩
  intro x hx hs
  have hl : x.1.length = 1 := by
    simp only [List.mem_cons, List.not_mem_nil, or_false] at hx
    rcases hx with rfl | rfl | rfl
    · exact absurd hs (by decide)
    · rfl
    · rfl
  refine ⟨fun t ht => ?_, fun y hy v n hn => ?_⟩
  · simp only [Option.some.injEq] at ht
    rcases ht with rfl | rfl <;> simp [hl]
  · rw [hl]
    simp only [List.mem_cons, List.not_mem_nil, or_false] at hy
    rcases hy with rfl | rfl | rfl
    · have : scanDigits [49, 50] = some (12, 2) := by decide
      simp only [this, Option.some.injEq, Prod.mk.injEq] at hn
      omega
    · exact absurd hn (by simp [show scanDigits [97] = none by decide])
    · exact absurd hn (by simp [show scanDigits [98] = none by decide])

/-- It marks the number, the phrase, and the two words in the other order. -/
example : getMatchv scanDigits sortParts abText abQuery mvNew = .ok ⟨[⟨2, 2, 1⟩, ⟨3, 4, 1⟩, ⟨0, 1, 1⟩, ⟨3, 4, 1⟩], 4⟩ := by decide +kernel

example : ∃ mv L, getMatchv scanDigits sortParts abText abQuery mvNew = .ok mv ∧ mv.matches_ = L.map (fun r => ⟨r.1, r.2, 1⟩) ∧ mv.size = L.length ∧ MarkedBy scanDigits abText abQuery L :=
  C85_marks_partial scanDigits sortParts sortParts_sorts abText abText_fine abQuery abQuery_markable

/-- **C85 fails for typed ranges**: a word as long as the bounds, from which no number can be read, makes highlighting read
a variable that has no value: the range from 10 to 20 and the word "ab". -/
theorem C85_words_for_numbers : getMatchv scanDigits sortParts (⟨0, [([49, 50], [0]), ([97, 98], [1])]⟩ : TV Nat) (.numRange 0 ⟨some [49, 48], some [50, 48], true, true⟩) mvNew = .ub := by decide +kernel

/-- **C85 fails for phrases without parts**: memory outside of an array is read, whatever the field holds. -/
theorem C85_no_parts {F : Type} [DecidableEq F] (scan : Scan) (qs : List (PhrasePart Term) → List (PhrasePart Term)) (hqs : SortsParts qs) (tv : TV F) (slop : Int) (mv : MV) :
    getMatchv scan qs tv (.phrase tv.field [] slop) mv = .ub := by
  have hq : qs [] = [] := (hqs []).1.eq_nil
  simp only [getMatchv, if_true, phraseMatch]
  by_cases hs : slop > 0
  · rw [if_pos hs]; rfl
  · rw [if_neg hs, exactMatch, hq]; rfl

/-- **C85 fails for sloppy phrases with one part**: if the word is in the field, a NULL pointer is used. -/
theorem C85_one_part {F : Type} [DecidableEq F] (scan : Scan) (qs : List (PhrasePart Term) → List (PhrasePart Term)) (tv : TV F) (hf : Fine tv.terms) (t : Term) (slop : Int) (hs : 0 < slop) (p : Int)
    (hw : wordsOf tv.terms t p) (mv : MV) : getMatchv scan qs tv (.phrase tv.field [⟨[t], 0⟩] slop) mv = .ub := by
  obtain ⟨ps, hm, hp⟩ := hw
  obtain ⟨o, g1, g2⟩ := getTerm_spec hf.order t
  have ho : o = some ps := (g2 ps).2 hm
  subst ho
  obtain ⟨a1, a2, _⟩ := hf.asc _ hm
  obtain ⟨e, n1, n2, n3, n4, _⟩ := new_next a1 a2 0
  simp only [getMatchv, if_true, phraseMatch, if_pos hs, sloppyMatch, sloppyInit, getTvpe, g1, Res.ok_bind, Option.map_some, n1, Bool.true_eq_false, if_false]
  obtain ⟨q1, u1, u2, u3, u4⟩ := PQ.push_spec tvpeLt_strictWeak (PQ.new [(⟨[t], 0⟩ : PhrasePart Term)].length) e (PQ.inv_new _ _)
  rw [u1]
  simp only [Res.ok_bind]
  have hh : q1.heap = [e] := List.perm_singleton.1 (by simpa [PQ.new] using u4)
  rw [sloppyGo]
  obtain ⟨x, q2, p1, p2, p3, p4, _⟩ := PQ.pop_spec tvpeLt_strictWeak q1 u2 (by rw [hh]; simp)
  rw [p1]
  simp only [Res.ok_bind, Res.ofOption]
  have : q2.heap = [] := by
    have := p4.length_eq
    rw [hh] at this
    simpa using this
  rw [PQ.top, this]
  rfl

/-- **C85 fails for phrases whose parts are all moved forward** (`phq_add_term_abs`): the phrase "a b" with its parts at 5 and
6 and a slop of 1 is in the text "a b", and nothing is marked. -/
theorem C85_moved : getMatchv scanDigits sortParts (⟨0, [([97], [0]), ([98], [1])]⟩ : TV Nat) (.phrase 0 [⟨[[97]], 5⟩, ⟨[[98]], 6⟩] 1) mvNew = .ok mvNew ∧
    Choice (wordsOf [([97], [0]), ([98], [1])]) [⟨[[97]], 5⟩, ⟨[[98]], 6⟩] (fun _ => -5) (-5) (-5) := by
  refine ⟨by decide +kernel, ?_⟩
  intro i x hx
  refine ⟨Int.le_refl _, Int.le_refl _, ?_⟩
  match i with
  | 0 => cases hx; exact ⟨[97], by simp, [0], by simp, by simp⟩
  | 1 => cases hx; exact ⟨[98], by simp, [1], by simp, by simp⟩
  | n + 2 => simp at hx

/-- One word may stand for two parts of a sloppy phrase: "a a" with a slop of 1 marks the only "a" of a field, though a search
does not find the document. -/
theorem C85_repeated_word : getMatchv scanDigits sortParts (⟨0, [([97], [3])]⟩ : TV Nat) (.phrase 0 [⟨[[97]], 0⟩, ⟨[[97]], 1⟩] 1) mvNew = .ok ⟨[⟨3, 3, 1⟩], 1⟩ := by decide +kernel

#print axioms C85_marks_partial
#print axioms C85_words_for_numbers
#print axioms C85_no_parts
#print axioms C85_one_part
#print axioms C85_moved
#print axioms C85_repeated_word
end Ferret.Props
