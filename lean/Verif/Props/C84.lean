import Verif.Lemmas.ExcerptFill
import Verif.Props.C46

/-!
C84: excerpts of a highlighted field are parts of its text, with tags around matches, and show the best runs of
matches.
-/

namespace Ferret.Props
open Ferret Ferret.Spec Ferret.MV Ferret.Fis Ferret.Fields Ferret.Excerpt

/-- Matches begin and end at positions that have a term. -/
def AtTokens (rs offsets : List (Int × Int)) : Prop :=
  ∀ p, matchEnd rs p → 0 ≤ p ∧ ∃ o, offsets[p.toNat]? = some o ∧ o ≠ (0, 0)

/-- No run of positions that are all in matches is longer than `len` bytes of text. -/
def ShortRuns (rs offsets : List (Int × Int)) (len : Int) : Prop :=
  ∀ p q a b, matchEnd rs p → matchEnd rs q → p ≤ q → (∀ x, p ≤ x → x ≤ q → coveredBy (asAdded rs) x) →
    offsets[p.toNat]? = some a → offsets[q.toNat]? = some b → b.2 - a.1 ≤ len

/-- `hits` are the matches: ranges of positions apart from one another that cover what the matches added cover.
Each starts and ends where its first and last terms do, and its score is the number of matches added in it. -/
def HitsOf (rs offsets : List (Int × Int)) (hits : List Hit) : Prop :=
  ∃ ms : List Range, apart 0 ms ∧ (∀ p, coveredBy ms p ↔ coveredBy (asAdded rs) p) ∧ hits.length = ms.length ∧
    ∀ (i : Nat) (m : Range), ms[i]? = some m → ∃ a b, offsets[m.1.1.toNat]? = some a ∧ offsets[m.1.2.toNat]? = some b ∧
      hits[i]? = some ⟨a.1, b.2, scoreWithin (asAdded rs) m⟩

/-- `outs` are excerpts of the text: as many windows as asked for are chosen, the best first, and each is in what
an excerpt shows. Excerpts may be merged; one in place of `n` is as long as `n` excerpts, but for the length of an
ellipsis. -/
def Excerpted (text : List Byte) (hits : List Hit) (len : Int) (num : Nat) (pre post ell : List Byte) (outs : List (List Byte)) : Prop :=
  ∃ (chosen : List (Nat × Nat)) (shown : List Shown), chosen.length = min num hits.length ∧ BestFirst len hits [] chosen ∧
    AllShow text hits pre post ell shown outs ∧ (shown.map (·.merged)).sum = num ∧
    (∀ x ∈ shown, 1 ≤ x.merged ∧ x.upto - x.from_ ≤ x.merged * len + ell.length) ∧
    ∀ w ∈ chosen, ∃ x ∈ shown, x.first ≤ w.1 ∧ w.2 < x.first + x.count

theorem offsetsFine_of {text : List Byte} {rs offsets : List (Int × Int)} (h : TokensFine text offsets) (ha : AtTokens rs offsets) :
    OffsetsFine text rs offsets := by
  constructor
  · intro p hp
    obtain ⟨h0, o, ho, hne⟩ := ha p hp
    refine ⟨h0, o, ho, ?_⟩
    rcases h.inside _ o ho with h1 | h1
    · exact absurd h1 hne
    · omega
  · intro p q hp hq hlt a b h1 h2
    obtain ⟨p0, _⟩ := ha p hp
    obtain ⟨q0, o, ho, hne⟩ := ha q hq
    rw [h2] at ho
    cases ho
    exact h.forward _ _ a b (by omega) h1 h2 hne

theorem withOffsets_get : ∀ (ms : List MR) (os : List (Int × Int)), ms.length = os.length → (withOffsets ms os).length = ms.length ∧
    ∀ (i : Nat) m o, ms[i]? = some m → os[i]? = some o → (withOffsets ms os)[i]? = some ⟨m.start, m.stop, o.1, o.2, m.score⟩ := by
  intro ms
  induction ms with
  | nil => intro os _; exact ⟨by cases os <;> rfl, fun i m o h => by simp at h⟩
  | cons x ms ih =>
    intro os h
    cases os with
    | nil => simp at h
    | cons y os =>
      obtain ⟨h1, h2⟩ := ih os (by simpa using h)
      refine ⟨by simp [withOffsets, h1], ?_⟩
      intro i m o hm ho
      cases i with
      | zero => simp at hm ho; subst hm; subst ho; rfl
      | succ i => exact h2 i m o (by simpa using hm) (by simpa using ho)

theorem scoreWithin_nonneg (rs : List (Int × Int)) (r : Range) : 0 ≤ scoreWithin (asAdded rs) r := by
  unfold scoreWithin asAdded
  generalize hl : ((rs.map fun r => ((r, 1) : Range)).filter _) = l
  have : ∀ x ∈ l, x.2 = 1 := by
    intro x hx
    rw [← hl] at hx
    obtain ⟨y, _, rfl⟩ := List.mem_map.1 (List.mem_filter.1 hx).1
    rfl
  clear hl
  induction l with
  | nil => simp
  | cons x l ih =>
    have h1 := this x (by simp)
    have h2 := ih (fun y hy => this y (by simp [hy]))
    simp only [List.map_cons, List.sum_cons]
    omega

/-- The ranges after compacting, and where their ends come from. -/
theorem breaks_ends {rs : List (Int × Int)} (hr : rs ≠ []) (hfine : ∀ r ∈ rs, r.1 ≤ r.2) {srt : List MR} (hsort : SortedTo (addedRanges rs) srt) :
    ∃ mv ms, compactWithBreaks { addedRanges rs with matches_ := srt } = .ok mv ∧ ranges mv = .ok ms ∧ apart 0 (ms.map MR.view) ∧
      (∀ p, coveredBy (ms.map MR.view) p ↔ coveredBy (asAdded rs) p) ∧
      (∀ m ∈ ms, matchEnd rs m.start ∧ matchEnd rs m.stop ∧ m.start ≤ m.stop ∧ m.score = scoreWithin (asAdded rs) m.view) := by
  obtain ⟨mv, ms, c1, c2, c3, c4, c5, c6⟩ := C47_breaks_partial rs hr hfine srt hsort
  refine ⟨mv, ms, c1, c2, c3, c5, ?_⟩
  have hends : ∀ m ∈ ms, matchEnd rs m.start ∧ matchEnd rs m.stop := by
    have hsz := hsort.perm.length_eq
    rw [addedRanges_eq] at hsort c1 hsz
    simp only [List.length_map] at hsz
    cases srt with
    | nil => exact absurd (List.length_eq_zero_iff.1 (by simpa using hsz.symm)) hr
    | cons s₀ srt =>
      have hmem : ∀ x ∈ s₀ :: srt, matchEnd rs x.start ∧ matchEnd rs x.stop ∧ x.start ≤ x.stop := by
        intro x hx
        obtain ⟨r, hr, e⟩ := List.mem_map.1 (hsort.perm.mem_iff.1 hx)
        subst e
        exact ⟨⟨r, hr, .inl rfl⟩, ⟨r, hr, .inr rfl⟩, hfine r hr⟩
      have h0 := (hmem s₀ (by simp)).2.2
      obtain ⟨m, left, e1, e2, e3⟩ := compact_pure breaksBody_is (s₀ := s₀) (s := srt) (s₀' := s₀)
        (by simp [breaksBody, Res.ofOption, show ¬ s₀.stop < s₀.start by omega])
      have hmv : mv = ⟨m, left + 1⟩ := by
        unfold compactWithBreaks at c1
        dsimp only at c1
        rw [← hsz, e1] at c1
        cases c1
        rfl
      subst hmv
      unfold ranges at c2
      rw [if_pos e2] at c2
      cases c2
      rw [e3]
      intro x hx
      obtain ⟨⟨y, hy, hy2⟩, z, hz, hz2⟩ := pureLoop_ends (gap := 0) (merge := mergeBreaks) (fun l r => ⟨rfl, rfl⟩) srt [] s₀ x hx
      rw [hy2, hz2]
      exact ⟨(hmem y (by simpa using hy)).1, (hmem z (by simpa using hz)).2.1⟩
  intro m hm
  exact ⟨(hends m hm).1, (hends m hm).2, c4 m.view (List.mem_map.2 ⟨m, hm, rfl⟩), c6 m.view (List.mem_map.2 ⟨m, hm, rfl⟩)⟩

theorem excerpts_stored {Z : Zip} (hZ : Lawful Z) {fdt : List Byte} {s : FI × DocF} (hs : GoodField Z s.1 s.2)
    (hu : isCompressed s.1 = false) (hlt : (joined s.2.data).length < 2 ^ 31) (hne : joined s.2.data ≠ []) {f : LazyF} (h : LInv Z fdt s f)
    {rs offsets : List (Int × Int)} (hr : rs ≠ []) (hfine : ∀ r ∈ rs, r.1 ≤ r.2) (htok : TokensFine (joined s.2.data) offsets) (hat : AtTokens rs offsets)
    {len : Int} (hsh : ShortRuns rs offsets len) {srt : List MR} (hsort : SortedTo (addedRanges rs) srt) (num : Nat) (pre post ell : List Byte) :
    ∃ outs hits, excerpts Z fdt f { addedRanges rs with matches_ := srt } offsets len num pre post ell = .ok outs ∧
      HitsOf rs offsets hits ∧ Excerpted (joined s.2.data) hits len num pre post ell outs := by
  have hdne : s.2.data ≠ [] := by intro e; rw [e] at hne; exact hne rfl
  have hof := offsetsFine_of htok hat
  obtain ⟨mv, ms, c1, c2, c3, c4, c5⟩ := breaks_ends hr hfine hsort
  have hoff : setOffsets offsets ms = .ok (offsetsOf offsets ms) := by
    apply setOffsets_is
    intro m hm
    obtain ⟨p1, a, ha, _⟩ := hof.known _ (c5 m hm).1
    obtain ⟨p2, b, hb, _⟩ := hof.known _ (c5 m hm).2.1
    exact ⟨p1, p2, ⟨a, ha⟩, b, hb⟩
  have hol : ms.length = (offsetsOf offsets ms).length := by simp [offsetsOf]
  obtain ⟨wl, wg⟩ := withOffsets_get ms (offsetsOf offsets ms) hol
  generalize hw : withOffsets ms (offsetsOf offsets ms) = mts at wl wg
  -- what is known of each match
  have hget : ∀ (i : Nat) x, mts[i]? = some x → ∃ m a b, ms[i]? = some m ∧ offsets[m.start.toNat]? = some a ∧ offsets[m.stop.toNat]? = some b ∧
      x = ⟨m.start, m.stop, a.1, b.2, m.score⟩ := by
    intro i x hx
    have hi : i < ms.length := by rw [← wl]; exact (List.getElem?_eq_some_iff.1 hx).1
    have hm : ms[i]? = some ms[i] := List.getElem?_eq_getElem hi
    generalize ms[i] = m at hm
    have hmm := List.mem_of_getElem? hm
    obtain ⟨_, a, ha, _⟩ := hof.known _ (c5 m hmm).1
    obtain ⟨_, b, hb, _⟩ := hof.known _ (c5 m hmm).2.1
    have := wg i m (a.1, b.2) hm (by simp [offsetsOf, hm, ha, hb])
    rw [hx] at this
    simp only [Option.some.injEq] at this
    exact ⟨m, a, b, hm, ha, hb, this⟩
  have hmne : mts ≠ [] := by
    intro e
    have hme : ms = [] := List.length_eq_zero_iff.1 (by rw [← wl, e]; rfl)
    cases hrs : rs with
    | nil => exact hr hrs
    | cons r rs' =>
      obtain ⟨y, hy, _⟩ := (c4 r.1).2 ⟨(r, 1), by rw [hrs]; simp [asAdded], Int.le_refl _, hfine r (by rw [hrs]; simp)⟩
      rw [hme] at hy
      simp at hy
  have hfit : Fit len mts := by
    refine ⟨?_, ?_, ?_, ?_⟩
    · intro x hx
      obtain ⟨i, hi⟩ := List.getElem?_of_mem hx
      obtain ⟨m, a, b, hm, ha, hb, rfl⟩ := hget i x hi
      have hmm := List.mem_of_getElem? hm
      have := hsh m.start m.stop a b (c5 m hmm).1 (c5 m hmm).2.1 (c5 m hmm).2.2.1 (fun p h1 h2 => (c4 p).1 ⟨m.view, List.mem_map.2 ⟨m, hmm, rfl⟩, h1, h2⟩) ha hb
      simp only
      omega
    · intro x hx
      obtain ⟨i, hi⟩ := List.getElem?_of_mem hx
      obtain ⟨m, a, b, hm, ha, hb, rfl⟩ := hget i x hi
      have hmm := List.mem_of_getElem? hm
      obtain ⟨_, a', ha', k1, k2, _⟩ := hof.known _ (c5 m hmm).1
      obtain ⟨_, b', hb', k3, k4, _⟩ := hof.known _ (c5 m hmm).2.1
      rw [ha] at ha'; cases ha'
      rw [hb] at hb'; cases hb'
      by_cases heq : m.start = m.stop
      · rw [heq] at ha; rw [ha] at hb; cases hb; exact k2
      · have := hof.forward _ _ (c5 m hmm).1 (c5 m hmm).2.1 (by have := (c5 m hmm).2.2.1; omega) a b ha hb
        simp only
        omega
    · rw [List.pairwise_iff_getElem]
      intro i j hi hj hij
      obtain ⟨m, a, b, hm, ha, hb, e1⟩ := hget i mts[i] (List.getElem?_eq_getElem hi)
      obtain ⟨m', a', b', hm', ha', hb', e2⟩ := hget j mts[j] (List.getElem?_eq_getElem hj)
      rw [e1, e2]
      simp only
      have hmm := List.mem_of_getElem? hm
      have hmm' := List.mem_of_getElem? hm'
      have hap : m.stop < m'.start := by
        unfold apart at c3
        rw [List.pairwise_map] at c3
        obtain ⟨hi', rfl⟩ := List.getElem?_eq_some_iff.1 hm
        obtain ⟨hj', rfl⟩ := List.getElem?_eq_some_iff.1 hm'
        have := List.pairwise_iff_getElem.1 c3 i j hi' hj' hij
        simp only [MR.view] at this
        omega
      exact hof.forward _ _ (c5 m hmm).2.1 (c5 m' hmm').1 hap b a' hb ha'
    · intro x hx
      obtain ⟨i, hi⟩ := List.getElem?_of_mem hx
      obtain ⟨m, a, b, hm, ha, hb, rfl⟩ := hget i x hi
      simp only
      rw [(c5 m (List.mem_of_getElem? hm)).2.2.2]
      exact scoreWithin_nonneg _ _
  have hfil := fill_ok htok
  have hfl := fillIn_length offsets
  have hlaid : Laid (joined s.2.data).length offsets mts := by
    refine ⟨hfil.mono, hfil.bound, ?_, ?_⟩
    · intro x hx
      obtain ⟨i, hi⟩ := List.getElem?_of_mem hx
      obtain ⟨m, a, b, hm, ha, hb, rfl⟩ := hget i x hi
      obtain ⟨p0, o, ho, hne'⟩ := hat _ (c5 m (List.mem_of_getElem? hm)).1
      rw [ha] at ho; cases ho
      have hlt' := (List.getElem?_eq_some_iff.1 ha).1
      have hp : (fillIn offsets)[m.start.toNat]? = some ((fillIn offsets)[m.start.toNat]'(by omega)) := List.getElem?_eq_getElem (by omega)
      have := (fill_inv htok _ _ hp).2.1 a ha hne'
      exact ⟨p0, a, _, ha, hp, rfl, by rw [this]⟩
    · intro x hx
      obtain ⟨i, hi⟩ := List.getElem?_of_mem hx
      obtain ⟨m, a, b, hm, ha, hb, rfl⟩ := hget i x hi
      obtain ⟨p0, o, ho, hne'⟩ := hat _ (c5 m (List.mem_of_getElem? hm)).2.1
      rw [hb] at ho; cases ho
      have hlt' := (List.getElem?_eq_some_iff.1 hb).1
      have hp : (fillIn offsets)[m.stop.toNat]? = some ((fillIn offsets)[m.stop.toNat]'(by omega)) := List.getElem?_eq_getElem (by omega)
      have := (fill_inv htok _ _ hp).2.1 b hb hne'
      exact ⟨p0, b, _, hb, hp, rfl, by rw [this]⟩
  obtain ⟨es, h1, h2, h3, h4, h5⟩ := choose_spec hfit num
  have hperm := sortEx_perm es
  obtain ⟨es', p1, p2, p3⟩ := place_spec (len := len) hlaid (sortEx es) (fun e he => h4 e (hperm.mem_iff.1 he))
  have hlen' : es'.length = es.length := by
    have := congrArg List.length p2
    simpa [hperm.length_eq] using this
  have hsorted : es'.Pairwise fun a b => a.start ≤ b.start := by
    have hk : (sortEx es).Pairwise fun a b => (keyOf a).1 ≤ (keyOf b).1 := by
      refine (sortEx_sorted es).imp ?_
      intro a b hab
      simp only [keyOf]
      omega
    have hk2 : ((sortEx es).map keyOf).Pairwise fun a b => a.1 ≤ b.1 := List.pairwise_map.2 hk
    rw [← p2, List.pairwise_map] at hk2
    refine (List.Pairwise.and_mem.1 hk2).imp ?_
    rintro a b ⟨ha, hb, hab⟩
    have := (p3 a ha).win.key.1
    have := (p3 b hb).win.key.1
    omega
  have hall : ∀ e ∈ padded num es', ExOk (joined s.2.data).length len (fillIn offsets) mts 1 e := by
    intro e he
    rcases List.mem_append.1 he with he | he
    · rw [List.eq_of_mem_replicate he]
      exact empty_ok hfit hlaid hmne
    · exact placed_ok hfit hlaid (p3 e he)
  have hbefore : (padded num es').Pairwise Before := by
    refine List.pairwise_append.2 ⟨?_, ?_, ?_⟩
    · rw [List.pairwise_replicate]
      exact .inr ⟨Int.le_refl _, Int.le_refl _, Int.le_refl _⟩
    · exact (List.Pairwise.and_mem.1 hsorted).imp fun ⟨ha, hb, hab⟩ => placed_before hfit hlaid (p3 _ ha) (p3 _ hb) hab
    · intro a ha b hb
      rw [List.eq_of_mem_replicate ha]
      exact empty_before hlaid (p3 b hb)
  have hplen : (padded num es').length = num := by
    simp only [padded, List.length_append, List.length_replicate, hlen', h2]
    omega
  obtain ⟨outs, xs, w1, w2, w3, w4, w5⟩ := writeLoop_spec hZ hs hu hlt hdne hfit hfil pre post ell num f (padded num es') (by omega) h hall hbefore
  refine ⟨outs, mts.map hitOf, ?_, ⟨ms.map MR.view, c3, c4, by simp [wl], ?_⟩, es.map keyOf, xs, by simp [h2], h5, w2, by rw [w3, hplen], w4, ?_⟩
  · unfold excerpts
    simp only [c1, Res.ok_bind, c2, hoff, hw, h1, p1, w1]
  · intro i m hm
    rw [List.getElem?_map, Option.map_eq_some_iff] at hm
    obtain ⟨x, hx, rfl⟩ := hm
    have hi : i < mts.length := by rw [wl]; exact (List.getElem?_eq_some_iff.1 hx).1
    obtain ⟨m, a, b, hm, ha, hb, e⟩ := hget i mts[i] (List.getElem?_eq_getElem hi)
    rw [hx] at hm
    cases hm
    refine ⟨a, b, ha, hb, ?_⟩
    rw [List.getElem?_map, List.getElem?_eq_getElem hi, e]
    simp only [Option.map_some, hitOf, Option.some.injEq, Hit.mk.injEq, true_and]
    exact (c5 x (List.mem_of_getElem? hx)).2.2.2
  · intro w hw'
    have : w ∈ es'.map keyOf := by
      rw [p2]
      exact (hperm.map keyOf).mem_iff.2 hw'
    obtain ⟨e, he, rfl⟩ := List.mem_map.1 this
    obtain ⟨k1, k2, _⟩ := (p3 e he).win.key
    obtain ⟨x, hx, x1, x2⟩ := w5 e (List.mem_append.2 (.inr he))
    exact ⟨x, hx, by omega, by omega⟩

theorem highlight_all {Z : Zip} (hZ : Lawful Z) {fdt : List Byte} {s : FI × DocF} (hs : GoodField Z s.1 s.2)
    (hu : isCompressed s.1 = false) (hlt : (joined s.2.data).length < 2 ^ 31) (hne : joined s.2.data ≠ []) {f : LazyF} (h : LInv Z fdt s f)
    {rs offsets : List (Int × Int)} (hfine : ∀ r ∈ rs, r.1 ≤ r.2) (htok : TokensFine (joined s.2.data) offsets) (hat : AtTokens rs offsets)
    {len : Int} {num : Nat} (h0 : 0 ≤ len) (hnum : len * num < 2 ^ 31) (hsh : (joined s.2.data).length < len * num ∨ ShortRuns rs offsets len)
    {srt : List MR} (hsort : SortedTo (addedRanges rs) srt) (pre post ell : List Byte) :
    ∃ res, highlight Z fdt f { addedRanges rs with matches_ := srt } offsets len num pre post ell = .ok res ∧
      ((joined s.2.data).length < len * num → ∃ out, res = some [out] ∧ Highlighted (joined s.2.data) rs offsets pre post out) ∧
      (len * num ≤ (joined s.2.data).length → rs = [] → res = none) ∧
      (len * num ≤ (joined s.2.data).length → rs ≠ [] → ∃ outs hits, res = some outs ∧ HitsOf rs offsets hits ∧
        Excerpted (joined s.2.data) hits len num pre post ell outs) := by
  have hdne : s.2.data ≠ [] := by intro e; rw [e] at hne; exact hne rfl
  have hfl := plain_len hZ hs hu hlt h hdne
  have hmul : 0 ≤ len * (num : Int) := Int.mul_nonneg h0 (by omega)
  have hsz : (addedRanges rs).size = rs.length := by rw [addedRanges_eq]
  unfold highlight
  rw [if_neg (by omega), hfl]
  by_cases hw : ((joined s.2.data).length : Int) < len * num
  · rw [if_pos hw]
    obtain ⟨out, o1, o2⟩ := highlight_stored hZ hs hu hlt hne h hfine (offsetsFine_of htok hat) hsort pre post
    rw [o1, Res.ok_bind]
    exact ⟨_, rfl, fun _ => ⟨out, rfl, o2⟩, fun hc => by omega, fun hc => by omega⟩
  · rw [if_neg hw]
    by_cases hr : rs = []
    · rw [if_neg (by rw [hsz, hr]; simp)]
      exact ⟨none, rfl, fun hc => absurd hc hw, fun _ _ => rfl, fun _ hc => absurd hr hc⟩
    · rw [if_pos (by rw [hsz]; exact List.length_pos_iff.2 hr)]
      obtain ⟨outs, hits, e1, e2, e3⟩ := excerpts_stored hZ hs hu hlt hne h hr hfine htok hat (hsh.resolve_left hw) hsort num pre post ell
      rw [e1, Res.ok_bind]
      exact ⟨_, rfl, fun hc => absurd hc hw, fun _ hc => absurd hc hr, fun _ _ => ⟨outs, hits, rfl, e2, e3⟩⟩

/-- **C84.** Take any stored field that is not compressed and whose text is not empty, in any document of an
index, with the offsets of its terms. For any set of matches, however they were added and sorted, asking for `num`
excerpts of length `len` gives:

* the whole text with every match tagged, if the text is shorter than all excerpts together;
* else nothing, if there are no matches;
* else excerpts. Runs of matches that fit an excerpt are chosen one after another, each the best of those left:
  no other has a higher score, not counting matches that are in runs already chosen. As many are chosen as were
  asked for, if there are so many matches. Every excerpt is a part of the text, with an ellipsis where text is
  left out, and tags around a run of matches; every run chosen is in an excerpt. Excerpts are not longer than
  asked for: one that takes the place of `n` has at most `n * len` bytes of text and as many more as the ellipsis
  has.

No more is written than was allocated, and no match outside the match vector is read.

Missing: a run of matching positions that is longer than an excerpt (`C84_long_match`), and that matches in the
text of an excerpt are tagged (`C84_untagged`); compressed fields, empty texts and offsets that go back are missing
as in C46. -/
theorem C84_excerpts_partial (Z : Zip) (hZ : Lawful Z) {si ii vi : Nat} {t0 : FIS} (h0 : fisNew si ii vi = .ok t0) (es : List Event)
    (hg : ∀ p ∈ docsOf es, GoodEvent Z (tableAfter t0 es) p.1 p.2) :
    ∃ w, run Z (fwOpen t0) es = .ok w ∧
      (w.fis.fields.length < 2 ^ 31 → w.fdt.length < 2 ^ 31 → (docsOf es).length * 12 < 2 ^ 31 →
      ∀ (k : Nat) (d : Doc) (tvs : List TvIn), (docsOf es)[k]? = some (d, tvs) →
        ∃ fs, frGetLazyDoc (frOpen w.fdt w.fdx w.fis) k = .ok fs ∧
          ∀ (j : Nat) (f : DocF) (fi : FI), (storedFields w.fis d)[j]? = some f → getField w.fis f.name = some fi →
            isCompressed fi = false → joined f.data ≠ [] → (joined f.data).length < 2 ^ 31 →
            ∃ lf, fs[j]? = some lf ∧ ∀ (rs offsets : List (Int × Int)) (sorted : List MR) (len : Int) (num : Nat) (pre post ell : List Byte),
              (∀ r ∈ rs, r.1 ≤ r.2) → TokensFine (joined f.data) offsets → AtTokens rs offsets → SortedTo (addedRanges rs) sorted →
              0 ≤ len → len * num < 2 ^ 31 → ((joined f.data).length < len * num ∨ ShortRuns rs offsets len) →
              ∃ res, highlight Z w.fdt lf { addedRanges rs with matches_ := sorted } offsets len num pre post ell = .ok res ∧
                ((joined f.data).length < len * num → ∃ out, res = some [out] ∧ Highlighted (joined f.data) rs offsets pre post out) ∧
                (len * num ≤ (joined f.data).length → rs = [] → res = none) ∧
                (len * num ≤ (joined f.data).length → rs ≠ [] → ∃ outs hits, res = some outs ∧ HitsOf rs offsets hits ∧
                  Excerpted (joined f.data) hits len num pre post ell outs)) := by
  obtain ⟨w, e1, e2, e3, e4⟩ := written_after hZ (fisNew_wf h0).1 es hg
  refine ⟨w, e1, ?_⟩
  intro hf hl hd k d tvs hk
  have hwt : WF w.fis := by rw [e2]; exact (tableAfter_spec es t0 (fisNew_wf h0).1).1
  obtain ⟨hT, hwi⟩ := tableAfter_spec [] w.fis hwt
  change WF w.fis at hT
  change Within w.fis w.fis at hwi
  obtain ⟨r, _, hwr⟩ := e4 k d tvs hk
  have hgd := (hg (d, tvs) (List.mem_of_getElem? hk)).doc
  rw [← e2] at hgd
  have hkl : k < (docsOf es).length := (List.getElem?_eq_some_iff.1 hk).1
  have hgT := good_later hwr hwi hgd
  obtain ⟨fs, g1, g2, g3⟩ := frGetLazyDoc_spec hZ hwr _ hT hwi hf hgT (by omega) (by omega)
  have hst : storedFields w.fis d = (storedOf w.fis d).map (·.2) := (storedOf_filter d).symm
  refine ⟨fs, g1, ?_⟩
  intro j f fi hj hfi hu hne hlen
  rw [hst, List.getElem?_map, Option.map_eq_some_iff] at hj
  obtain ⟨s, hs, rfl⟩ := hj
  obtain ⟨lf, hl1, hl2⟩ := g3 j s hs
  have hmem := List.mem_of_getElem? hs
  have hfi' : fi = s.1 := by
    unfold storedOf at hmem
    rw [List.mem_filterMap] at hmem
    obtain ⟨f0, hf0, he⟩ := hmem
    cases hg0 : getField w.fis f0.name with
    | none => rw [hg0] at he; cases he
    | some gi =>
      rw [hg0] at he
      simp only at he
      split at he
      · cases he
        rw [hg0] at hfi
        cases hfi
        rfl
      · cases he
  subst hfi'
  refine ⟨lf, hl1, ?_⟩
  intro rs offsets sorted len num pre post ell hfine htok hat hso hlen0 hnum hsh
  exact highlight_all hZ (hgT.fields s hmem) hu hlen hne hl2 hfine htok hat hlen0 hnum hsh hso pre post ell

/-! ### A case that meets the hypotheses -/

/-- Highlight the first field of the first document with excerpts. -/
def excerptFirst (Z : Zip) (es : List Event) (rs offsets : List (Int × Int)) (len : Int) (num : Nat) (pre post ell : List Byte) :
    Res (Option (List (List Byte))) :=
  run Z (fwOpen sampleTable) es >>= fun w =>
  frGetLazyDoc (frOpen w.fdt w.fdx w.fis) 0 >>= fun fs =>
  Res.ofOption fs[0]? >>= fun lf =>
  highlight Z w.fdt lf (addedRanges rs) offsets len num pre post ell

example : TokensFine someText [(0, 3), (4, 7), (8, 13)] := by
  have hi : ∀ (i : Nat) (o : Int × Int), ([(0, 3), (4, 7), (8, 13)] : List (Int × Int))[i]? = some o → (i = 0 ∧ o = (0, 3)) ∨ (i = 1 ∧ o = (4, 7)) ∨ (i = 2 ∧ o = (8, 13)) := by
    intro i o h
    match i, h with
    | 0, h => left; simp at h; exact ⟨rfl, h.symm⟩
    | 1, h => right; left; simp at h; exact ⟨rfl, h.symm⟩
    | 2, h => right; right; simp at h; exact ⟨rfl, h.symm⟩
    | n + 3, h => simp at h
  constructor
  · intro i o h
    rcases hi i o h with ⟨_, rfl⟩ | ⟨_, rfl⟩ | ⟨_, rfl⟩ <;> right <;> decide
  · intro i j a b hij ha hb _
    rcases hi i a ha with ⟨h1, rfl⟩ | ⟨h1, rfl⟩ | ⟨h1, rfl⟩ <;> rcases hi j b hb with ⟨h2, rfl⟩ | ⟨h2, rfl⟩ | ⟨h2, rfl⟩ <;> first
      | omega
      | decide

theorem twoEnds {p : Int} (h : matchEnd [(0, 0), (2, 2)] p) : p = 0 ∨ p = 2 := by
  obtain ⟨r, hr, hp⟩ := h
  simp only [List.mem_cons, List.not_mem_nil, or_false] at hr
  rcases hr with rfl | rfl <;> simp at hp <;> omega

example : AtTokens [(0, 0), (2, 2)] [(0, 3), (4, 7), (8, 13)] := by
  intro p hp
  rcases twoEnds hp with rfl | rfl
  · exact ⟨by omega, _, rfl, by decide⟩
  · exact ⟨by omega, _, rfl, by decide⟩

example : ShortRuns [(0, 0), (2, 2)] [(0, 3), (4, 7), (8, 13)] 6 := by
  intro p q a b hp hq hle hcov ha hb
  rcases twoEnds hp with rfl | rfl <;> rcases twoEnds hq with rfl | rfl
  · cases ha; cases hb; decide
  · obtain ⟨r, hr, h1, h2⟩ := hcov 1 (by omega) (by omega)
    simp only [asAdded, List.map_cons, List.map_nil, List.mem_cons, List.not_mem_nil, or_false] at hr
    rcases hr with rfl | rfl <;> simp only at h1 h2 <;> omega
  · omega
  · cases ha; cases hb; decide

/-- One excerpt, of the first match: `<one>..`. -/
example : excerptFirst plusOne someEvents [(0, 0), (2, 2)] [(0, 3), (4, 7), (8, 13)] 6 1 [60] [62] [46, 46] =
    .ok (some [[60, 111, 110, 101, 62, 46, 46]]) := by decide +kernel

/-- Two excerpts that are not merged: `<one>.` and `.<three>`. -/
example : excerptFirst plusOne someEvents [(0, 0), (2, 2)] [(0, 3), (4, 7), (8, 13)] 5 2 [60] [62] [46] =
    .ok (some [[60, 111, 110, 101, 62, 46], [46, 60, 116, 104, 114, 101, 101, 62]]) := by decide +kernel

/-! ### Where the code does not do it -/

/-- A word longer than an excerpt is the first match: the match before the first is read. -/
theorem C84_long_match : excerptFirst plusOne someEvents [(2, 2)] [(0, 3), (4, 7), (8, 13)] 4 1 [60] [62] [46] = .ub := by decide +kernel

/-- A word longer than an excerpt is the second match: two excerpts are asked for, and the one given shows only
the first match, `<one> two.`. -/
theorem C84_long_match_lost : excerptFirst plusOne someEvents [(0, 0), (2, 2)] [(0, 3), (4, 7), (8, 13)] 4 2 [60] [62] [46] =
    .ok (some [[60, 111, 110, 101, 62, 32, 116, 119, 111, 46]]) := by decide +kernel

/-- "a  bcd  e fghij". -/
def gappyText : List Byte := [97, 32, 32, 98, 99, 100, 32, 32, 101, 32, 102, 103, 104, 105, 106]

/-- The words "a" and "bcd", matched twice, and "e" are matches. Two excerpts of 5 bytes are merged to one and
expanded: it shows "e" without tags, `<a>  <bcd>  e.`. -/
theorem C84_untagged : excerptFirst plusOne [.doc [⟨[116], [gappyText]⟩] []] [(0, 0), (0, 0), (1, 1), (1, 1), (2, 2)]
    [(0, 1), (3, 6), (8, 9), (10, 15)] 5 2 [60] [62] [46] =
    .ok (some [[60, 97, 62, 32, 32, 60, 98, 99, 100, 62, 32, 32, 101, 46]]) := by decide +kernel

#print axioms C84_excerpts_partial
#print axioms C84_long_match
#print axioms C84_long_match_lost
#print axioms C84_untagged
end Ferret.Props
