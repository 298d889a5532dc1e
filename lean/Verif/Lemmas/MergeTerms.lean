import Verif.Lemmas.Merge
import Verif.Lemmas.HashSet
import Verif.Props.C22

/-! Lemmas about merging terms (C27). -/

namespace Ferret.Merge
open Ferret Ferret.Expand Ferret.Dict Ferret.Post Ferret.Spec Ferret.Props

/-! ### One term -/

/-- The enumerator of a segment's postings is there, wherever it stands. -/
structure TdeOK (smi : Smi) (s : STDE) : Prop where
  pos : s.isPos = true
  del : s.del = smi.del
  frq : s.frq = smi.files.frq
  prx : s.prx = smi.files.prx
  si : s.si = smi.sfi.skipInterval

/-- Seeking a term goes before its first document. -/
theorem seek_spec {smi : Smi} {s : STDE} (h : TdeOK smi s) (hsi : 0 < smi.sfi.skipInterval) {ti ti' : TI} {ps : List Posting}
    (hag : Agrees smi.sfi.skipInterval ti' ti) (hl : Loc smi.files.frq smi.files.prx smi.sfi.skipInterval ti ps) (hps : PsOK ps) :
    ∃ s', stpeSeekTi s (some ti') = .ok s' ∧ Post.At smi.files.frq smi.files.prx smi.sfi.skipInterval ti.frqPtr ti.prxPtr ps ∧
      Core smi.files.frq smi.files.prx smi.sfi.skipInterval ti.frqPtr ti.prxPtr ps s' 0 ∧ TdeOK smi s' ∧ s'.prxAt = ti.prxPtr + P ps 0 := by
  have hat : Post.At smi.files.frq smi.files.prx smi.sfi.skipInterval ti.frqPtr ti.prxPtr ps := ⟨hps, hsi, hl.frqAt, hl.frqLe, hl.prxAt, hl.prxLe⟩
  obtain ⟨q1, q2, q3, q4⟩ := hag
  have hdf := hl.docFreq
  simp only [stpeSeekTi, seekTi]
  rw [if_neg (show ¬ s.si = 0 by rw [h.si]; omega)]
  simp only [Res.ok_bind]
  refine ⟨_, rfl, hat, ⟨h.frq, h.prx, h.si, Nat.zero_le _, rfl, ?_, ?_, ?_, ?_, 0, rfl, Nat.zero_le _, ?_, ?_, ?_, fun _ => ⟨rfl, fun hle => ?_⟩, ?_⟩, ⟨h.pos, h.del, h.frq, h.prx, h.si⟩, ?_⟩
  · show (ti'.docFreq : Int) = _
    rw [q1, hdf]
  · rw [D_zero]; rfl
  · show ti'.frqPtr = _
    rw [q2, F_zero]; rfl
  · show Int.tdiv ti'.docFreq s.si = _
    rw [q1, hdf, h.si, Int.tdiv_eq_ediv_of_nonneg (by omega)]; rfl
  · rw [Nat.zero_mul, Nat.zero_sub, D_zero]; rfl
  · rw [Nat.zero_mul, Nat.zero_sub, F_zero]; exact q2
  · rw [Nat.zero_mul, Nat.zero_sub, P_zero]; exact q3
  · show ti'.frqPtr + ti'.skip = _
    rw [q2, q4 (by omega), hl.skip]
  · exact fun hh => nomatch hh
  · show ti'.prxPtr = _
    rw [q3, P_zero]; rfl

/-- A segment that is merged: what is read, and what was written. -/
structure Src where
  smi : Smi
  fields : List (Nat × List (Term × List Posting))
  dead : Nat → Bool

/-- Its dictionary. -/
def Src.dict (s : Src) : List (Nat × List (Term × TI)) := (flushFields s.smi.sfi.skipInterval [] [] s.fields).2.2

def Src.seg (s : Src) : MTE.Seg := ⟨⟨s.smi.sfi, s.smi.files.dict.tis⟩, s.dict⟩

/-- The files are those that were written. -/
structure Src.OK (s : Src) : Prop where
  siPos : 0 < s.smi.sfi.skipInterval
  segment : ∃ ii, Segment ii s.smi.sfi.skipInterval s.fields
  frq : s.smi.files.frq = (flushFields s.smi.sfi.skipInterval [] [] s.fields).1
  prx : s.smi.files.prx = (flushFields s.smi.sfi.skipInterval [] [] s.fields).2.1
  dict : DictOK s.smi.sfi s.smi.files.dict.tis s.dict
  maps : Maps s.smi s.dead
  max : ∀ x ∈ s.fields, ∀ y ∈ x.2, ∀ p ∈ y.2, p.doc < s.smi.maxDoc
  cnt : s.smi.docCnt = liveBefore s.dead s.smi.maxDoc

/-- What a segment gives for a term. -/
def Src.part (s : Src) (f : Int) (t : Term) : List Posting := renum s.smi.base s.dead ((postingsOf s.fields f t).getD [])

/-- The entry of a term. -/
theorem Src.OK.entry {s : Src} (h : s.OK) {f : Int} {x : Term × TI} (hx : x ∈ entriesOf s.dict f) :
    ∃ ps, postingsOf s.fields f x.1 = some ps ∧ Loc s.smi.files.frq s.smi.files.prx s.smi.sfi.skipInterval x.2 ps ∧ PsOK ps ∧ ∀ p ∈ ps, p.doc < s.smi.maxDoc := by
  obtain ⟨ii, hseg⟩ := h.segment
  have hloc := entry_loc hseg h.siPos f x.1
  dsimp only at hloc
  have hasc := (h.dict f).1
  have hent : entryOf s.dict f x.1 = some x := by
    have h2 : entryOf s.dict f x.1 = (entriesOf s.dict f).find? fun e => decide (e.1 = x.1) := rfl
    rw [h2]
    obtain ⟨i, hi⟩ := List.getElem?_of_mem hx
    cases hf : (entriesOf s.dict f).find? (fun e => decide (e.1 = x.1)) with
    | none =>
      rw [List.find?_eq_none] at hf
      simpa using hf x hx
    | some y =>
      have hy := List.mem_of_find?_eq_some hf
      have he : y.1 = x.1 := by simpa using List.find?_some hf
      obtain ⟨j, hj⟩ := List.getElem?_of_mem hy
      have hp := List.pairwise_iff_getElem.1 hasc
      obtain ⟨hi1, hi2⟩ := List.getElem?_eq_some_iff.1 hi
      obtain ⟨hj1, hj2⟩ := List.getElem?_eq_some_iff.1 hj
      rcases Nat.lt_trichotomy i j with hlt | heq | hlt
      · have := hp i j hi1 hj1 hlt
        rw [hi2, hj2, he] at this
        exact absurd this (List.lt_irrefl _)
      · subst heq
        rw [hi] at hj
        cases hj
        rfl
      · have := hp j i hj1 hi1 hlt
        rw [hi2, hj2, he] at this
        exact absurd this (List.lt_irrefl _)
  rcases hloc with ⟨h1, -⟩ | ⟨ti, ps, h1, h2, h3, h4⟩
  · rw [show entryOf (flushFields s.smi.sfi.skipInterval [] [] s.fields).2.2 f x.1 = entryOf s.dict f x.1 from rfl, hent] at h1
    cases h1
  · rw [show entryOf (flushFields s.smi.sfi.skipInterval [] [] s.fields).2.2 f x.1 = entryOf s.dict f x.1 from rfl, hent] at h1
    have hti : x.2 = ti := congrArg (·.2) (Option.some.inj h1)
    rw [← hti] at h3
    refine ⟨ps, h2, by rw [h.frq, h.prx]; exact h3, h4, ?_⟩
    unfold postingsOf at h2
    simp only [Option.map_eq_some_iff, Option.bind_eq_some_iff] at h2
    obtain ⟨y, ⟨z, hz, hy⟩, rfl⟩ := h2
    exact h.max z (List.mem_of_find?_eq_some hz) y (List.mem_of_find?_eq_some hy)

/-- A term that is not in the dictionary has no documents. -/
theorem Src.OK.noEntry {s : Src} (h : s.OK) {f : Int} {t : Term} (hx : ∀ x ∈ entriesOf s.dict f, x.1 ≠ t) : s.part f t = [] := by
  obtain ⟨ii, hseg⟩ := h.segment
  have hloc := entry_loc hseg h.siPos f t
  dsimp only at hloc
  rcases hloc with ⟨-, h1⟩ | ⟨ti, ps, h1, -⟩
  · unfold Src.part
    rw [h1]
    rfl
  · have h2 : (entriesOf s.dict f).find? (fun e => decide (e.1 = t)) = some (t, ti) := h1
    exact absurd rfl (hx _ (List.mem_of_find?_eq_some h2))

/-! ### All segments with a term -/

theorem appendAll_spec {si : Nat} (hsi : 0 < si) {srcs : List Src} (hok : ∀ s ∈ srcs, s.OK) (tes : List STE) (f : Int) (t : Term) :
    ∀ (is : List Nat) (tdes : List STDE) (a : App),
    (∀ i ∈ is, ∃ s e x, srcs[i]? = some s ∧ tes[i]? = some e ∧ x ∈ entriesOf s.dict f ∧ x.1 = t ∧ Agrees s.smi.sfi.skipInterval e.ti x.2) →
    (∀ (i : Nat) s, srcs[i]? = some s → ∃ d, tdes[i]? = some d ∧ TdeOK s.smi d) →
    Chain a.lastDoc (is.flatMap fun i => ((srcs[i]?).map fun s => s.part f t).getD []) →
    ∃ tdes' a', appendAll si (srcs.map (·.smi)) tes is tdes a = .ok (tdes', a') ∧
      (∀ (i : Nat) s, srcs[i]? = some s → ∃ d, tdes'[i]? = some d ∧ TdeOK s.smi d) ∧
      (a'.df, a'.buf, a'.frq, a'.prx) = postLoop si a.df a.lastDoc a.buf a.frq a.prx (is.flatMap fun i => ((srcs[i]?).map fun s => s.part f t).getD []) := by
  intro is
  induction is with
  | nil => intro tdes a _ h2 _; exact ⟨tdes, a, rfl, h2, rfl⟩
  | cons i is ih =>
    intro tdes a h1 h2 h3
    obtain ⟨s, e, x, g1, g2, g3, g4, g5⟩ := h1 i (List.mem_cons_self ..)
    obtain ⟨d, d1, d2⟩ := h2 i s g1
    have hs := hok s (List.mem_of_getElem? g1)
    obtain ⟨ps, p1, p2, p3, p4⟩ := hs.entry g3
    obtain ⟨d', k1, k2, k3, k4, k5⟩ := seek_spec d2 hs.siPos g5 p2 p3
    have hpart : s.part f t = renum s.smi.base s.dead (ps.drop 0) := by
      unfold Src.part
      rw [← g4, p1]
      rfl
    rw [List.flatMap_cons, g1, Option.map_some, Option.getD_some, Chain.append] at h3
    obtain ⟨c1, c2⟩ := h3
    rw [hpart] at c1
    obtain ⟨d'', a', r1, r2, r3, r4, r5, r6, r7, r8⟩ := appendLoop_spec k2 hs.maps hsi p4 (e.ti.docFreq + 1) d' 0 a k3 k4.pos k4.del k5
      (by rw [g5.docFreq, p2.docFreq]; omega) c1
    have ht : ∀ (j : Nat) s', srcs[j]? = some s' → ∃ d, (tdes.set i d'')[j]? = some d ∧ TdeOK s'.smi d := by
      intro j s' hj
      by_cases hji : j = i
      · subst hji
        rw [g1] at hj
        cases hj
        exact ⟨d'', by rw [List.getElem?_set_self (List.getElem?_eq_some_iff.1 d1).1], r2, r3.trans k4.del, r4, r5, r6⟩
      · rw [List.getElem?_set_ne (by omega)]
        exact h2 j s' hj
    have hlast : a'.lastDoc = lastDoc a.lastDoc (s.part f t) := by rw [r8, hpart]
    obtain ⟨tdes', a'', q1, q2, q3⟩ := ih (tdes.set i d'') a' (fun j hj => h1 j (List.mem_cons_of_mem _ hj)) ht (by rw [hlast]; exact c2)
    refine ⟨tdes', a'', ?_, q2, ?_⟩
    · unfold appendAll
      rw [List.getElem?_map, g1, g2, d1]
      simp only [Option.map_some, Res.ofOption, Res.ok_bind]
      rw [k1, Res.ok_bind, r1, Res.ok_bind]
      exact q1
    · rw [List.flatMap_cons, g1, Option.map_some, Option.getD_some, postLoop_append, q3, hlast, hpart, ← r7]

theorem tiwAdd_ok {w : TIW} (h : w.indexInterval ≠ 0) (t : Term) (ti : TI) : ∃ w', tiwAdd w t ti = .ok w' ∧ w'.indexInterval = w.indexInterval := by
  unfold tiwAdd
  rw [if_neg h]
  dsimp only
  split <;> exact ⟨_, rfl, rfl⟩

/-- What was added for a list of terms. -/
def Adds (si : Nat) (m m' : SM) (ts : List (Term × List Posting)) : Prop :=
  ∃ es, flushTerms si m.frq m.prx ts = (m'.frq, m'.prx, es) ∧ addTerms m.tiw es = .ok m'.tiw ∧ m'.tiw.indexInterval = m.tiw.indexInterval

theorem addTerms_append : ∀ (es es' : List (Term × TI)) (w w' : TIW), addTerms w es = .ok w' → addTerms w (es ++ es') = addTerms w' es' := by
  intro es
  induction es with
  | nil => intro es' w w' h; cases h; rfl
  | cons e es ih =>
    intro es' w w' h
    obtain ⟨t, ti⟩ := e
    simp only [addTerms, List.cons_append] at h ⊢
    obtain ⟨w1, h1, h2⟩ := Res.bind_eq_ok.1 h
    rw [h1, Res.ok_bind]
    exact ih es' w1 w' h2

theorem flushTerms_append (si : Nat) : ∀ (xs ys : List (Term × List Posting)) (frq prx : List Byte),
    flushTerms si frq prx (xs ++ ys) =
      ((flushTerms si (flushTerms si frq prx xs).1 (flushTerms si frq prx xs).2.1 ys).1,
       (flushTerms si (flushTerms si frq prx xs).1 (flushTerms si frq prx xs).2.1 ys).2.1,
       (flushTerms si frq prx xs).2.2 ++ (flushTerms si (flushTerms si frq prx xs).1 (flushTerms si frq prx xs).2.1 ys).2.2) := by
  intro xs
  induction xs with
  | nil => intros; rfl
  | cons x xs ih =>
    intro ys frq prx
    obtain ⟨t, ps⟩ := x
    simp only [List.cons_append, flushTerms]
    rw [ih]

theorem Adds.nil (si : Nat) (m : SM) : Adds si m m [] := ⟨[], rfl, rfl, rfl⟩

theorem Adds.trans {si : Nat} {m m' m'' : SM} {xs ys : List (Term × List Posting)} (h1 : Adds si m m' xs) (h2 : Adds si m' m'' ys) : Adds si m m'' (xs ++ ys) := by
  obtain ⟨es, a1, a2, a3⟩ := h1
  obtain ⟨es', b1, b2, b3⟩ := h2
  refine ⟨es ++ es', ?_, ?_, b3.trans a3⟩
  · rw [flushTerms_append, a1]
    dsimp only
    rw [b1]
  · rw [addTerms_append _ _ _ _ a2]
    exact b2

theorem Adds.congr {si : Nat} {m m' n n' : SM} {xs : List (Term × List Posting)} (h : Adds si m m' xs) (h1 : n.frq = m.frq) (h2 : n.prx = m.prx) (h3 : n.tiw = m.tiw)
    (g1 : n'.frq = m'.frq) (g2 : n'.prx = m'.prx) (g3 : n'.tiw = m'.tiw) : Adds si n n' xs := by
  unfold Adds at h ⊢
  rw [h1, h2, h3, g1, g2, g3]
  exact h

theorem postLoop_df (si : Nat) : ∀ (ps : List Posting) (df last : Nat) (b : SkipBuf) (frq prx : List Byte), (postLoop si df last b frq prx ps).1 = df + ps.length := by
  intro ps
  induction ps with
  | nil => intros; rfl
  | cons p ps ih =>
    intro df last b frq prx
    simp only [postLoop, List.length_cons]
    rw [ih]
    omega

/-- Merging a term: its documents in all segments are written as one list, unless there are none. -/
theorem mergeTerm_spec {si : Nat} (hsi : 0 < si) {srcs : List Src} (hok : ∀ s ∈ srcs, s.OK) (m : SM) (hii : m.tiw.indexInterval ≠ 0) (f : Int) (t : Term) (is : List Nat)
    (h1 : ∀ i ∈ is, ∃ s e x, srcs[i]? = some s ∧ m.tes[i]? = some e ∧ x ∈ entriesOf s.dict f ∧ x.1 = t ∧ Agrees s.smi.sfi.skipInterval e.ti x.2)
    (h2 : ∀ (i : Nat) s, srcs[i]? = some s → ∃ d, m.tdes[i]? = some d ∧ TdeOK s.smi d)
    (ps : List Posting) (hps : ps = is.flatMap fun i => ((srcs[i]?).map fun s => s.part f t).getD []) (hch : Chain 0 ps) :
    ∃ m', mergeTerm si (srcs.map (·.smi)) m t is = .ok m' ∧ m'.tes = m.tes ∧ m'.q = m.q ∧
      (∀ (i : Nat) s, srcs[i]? = some s → ∃ d, m'.tdes[i]? = some d ∧ TdeOK s.smi d) ∧
      Adds si m m' (if ps = [] then [] else [(t, ps)]) := by
  obtain ⟨tdes', a', r1, r2, r3⟩ := appendAll_spec hsi hok m.tes f t is m.tdes ⟨0, 0, skipReset m.frq m.prx, m.frq, m.prx⟩ h1 h2 (by rw [← hps]; exact hch)
  rw [← hps] at r3
  dsimp only at r3
  unfold mergeTerm
  rw [r1, Res.ok_bind]
  dsimp only
  have hdf : a'.df = ps.length := by
    have := postLoop_df si ps 0 0 (skipReset m.frq m.prx) m.frq m.prx
    rw [← r3] at this
    dsimp only at this
    omega
  by_cases hne : ps = []
  · rw [if_neg (by rw [hdf, hne]; decide), if_pos hne]
    refine ⟨_, rfl, rfl, rfl, r2, ?_⟩
    rw [hne] at r3
    simp only [postLoop, Prod.mk.injEq] at r3
    obtain ⟨-, q2, q3, q4⟩ := r3
    refine ⟨[], ?_, rfl, rfl⟩
    simp only [flushTerms, q2, q3, q4, skipReset, List.append_nil]
  · have hpos : a'.df > 0 := by rw [hdf]; exact List.length_pos_iff.2 hne
    rw [if_pos hpos, if_neg hne]
    obtain ⟨w', w1, w2⟩ := tiwAdd_ok hii t ⟨a'.df, m.frq.length, m.prx.length, a'.frq.length - m.frq.length⟩
    rw [w1, Res.ok_bind]
    refine ⟨_, rfl, rfl, rfl, r2, ⟨[(t, ⟨a'.df, m.frq.length, m.prx.length, a'.frq.length - m.frq.length⟩)], ?_, ?_, w2⟩⟩
    · simp only [flushTerms, flushTerm, ← r3]
    · simp only [addTerms]
      rw [w1]
      rfl

/-! ### The queue -/

theorem smiLt_eq (a b : Term × Nat × Nat) : smiLt a b = MTE.tewLt (a.1, a.2.1) (b.1, b.2.1) := rfl

theorem smiLt_weak : StrictWeak smiLt :=
  ⟨fun a b h => MTE.tewLt_weak.asymm (a.1, a.2.1) (b.1, b.2.1) h, fun a b c h1 h2 => MTE.tewLt_weak.negTrans (a.1, a.2.1) (b.1, b.2.1) (c.1, c.2.1) h1 h2⟩

/-- What is in the queue: the first term of each segment that has one left. -/
def heads (n : Nat) (base : Nat → Nat) (Qs : Nat → List (Term × TI)) : List (Term × Nat × Nat) :=
  (List.range n).filterMap fun i => (Qs i).head?.map fun x => (x.1, base i, i)

theorem mem_heads {n : Nat} {base : Nat → Nat} {Qs : Nat → List (Term × TI)} {y : Term × Nat × Nat} :
    y ∈ heads n base Qs ↔ y.2.2 < n ∧ y.2.1 = base y.2.2 ∧ ∃ x L, Qs y.2.2 = x :: L ∧ x.1 = y.1 := by
  unfold heads
  rw [List.mem_filterMap]
  constructor
  · rintro ⟨i, hi, h⟩
    obtain ⟨x, hx, rfl⟩ := Option.map_eq_some_iff.1 h
    cases hL : Qs i with
    | nil => rw [hL] at hx; cases hx
    | cons z L =>
      rw [hL, List.head?_cons, Option.some.injEq] at hx
      exact ⟨List.mem_range.1 hi, rfl, z, L, rfl, by rw [hx]⟩
  · rintro ⟨h1, h2, x, L, h3, h4⟩
    refine ⟨y.2.2, List.mem_range.2 h1, ?_⟩
    rw [h3, ← h2]
    simp [h4]

/-- One segment's list changes. -/
theorem heads_split {n i : Nat} (hi : i < n) (base : Nat → Nat) (Qs : Nat → List (Term × TI)) (L : List (Term × TI)) (hQ : Qs i = []) :
    (heads n base (MTE.upd Qs i L)).Perm ((L.head?.map fun x => (x.1, base i, i)).toList ++ heads n base Qs) := by
  have h1 := MTE.range_split n i hi fun j => (Qs j).head?.map fun x => (x.1, base j, j)
  have h2 := MTE.range_split n i hi fun j => (MTE.upd Qs i L j).head?.map fun x => (x.1, base j, j)
  rw [MTE.filterMap_erase_congr _ i _ (fun j => (MTE.upd Qs i L j).head?.map fun x => (x.1, base j, j)) (fun j hj => by unfold MTE.upd; rw [if_neg hj])] at h1
  rw [hQ] at h1
  refine h2.trans ?_
  rw [show MTE.upd Qs i L i = L by unfold MTE.upd; rw [if_pos rfl]]
  exact List.Perm.append_left _ h1.symm

theorem heads_same {n : Nat} {base : Nat → Nat} {Qs Qs' : Nat → List (Term × TI)} (h : ∀ i, i < n → Qs i = Qs' i) : heads n base Qs = heads n base Qs' := by
  unfold heads
  exact MTE.filterMap_congr' fun i hi => by rw [h i (List.mem_range.1 hi)]

/-- The segments that have been taken from the queue. -/
structure Taken (n : Nat) (base : Nat → Nat) (Qs : Nat → List (Term × TI)) (ms : List Nat) : Prop where
  nodup : ms.Nodup
  lt : ∀ i ∈ ms, i < n
  sorted : ms.Pairwise fun a b => base a ≤ base b

theorem popLoop_spec {n : Nat} {base : Nat → Nat} {term : Term} : ∀ (fuel : Nat) (q : PQ.PQ (Term × Nat × Nat)) (ms : List Nat) (Qs : Nat → List (Term × TI)),
    PQ.Inv smiLt q → q.heap.Perm (heads n base Qs) → q.heap.length < fuel →
    Taken n base Qs ms → (∀ i ∈ ms, Qs i = []) → (∀ j ∈ ms, ∀ y ∈ heads n base Qs, y.1 = term → base j ≤ y.2.1) → (∀ y ∈ heads n base Qs, ¬ y.1 < term) →
    ∃ q' ms', popLoop n term fuel q ms = .ok (q', ms') ∧ PQ.Inv smiLt q' ∧ Taken n base Qs ms' ∧
      q'.heap.Perm (heads n base fun i => if i ∈ ms' then [] else Qs i) ∧
      (∀ i, i ∈ ms' ↔ i ∈ ms ∨ (i < n ∧ ∃ x L, Qs i = x :: L ∧ x.1 = term)) := by
  intro fuel
  induction fuel with
  | zero => intro q ms Qs _ _ h; omega
  | succ fuel ih =>
    intro q ms Qs hq hh hf ht hms hbase hge
    have stop : (∀ y ∈ heads n base Qs, y.1 ≠ term) → q.heap.Perm (heads n base fun i => if i ∈ ms then [] else Qs i) ∧
        ∀ i, i ∈ ms ↔ i ∈ ms ∨ (i < n ∧ ∃ x L, Qs i = x :: L ∧ x.1 = term) := by
      intro hno
      constructor
      · rw [heads_same (Qs' := Qs)]
        · exact hh
        · intro i _
          by_cases hi : i ∈ ms
          · rw [if_pos hi, hms i hi]
          · rw [if_neg hi]
      · intro i
        constructor
        · exact Or.inl
        · rintro (h | ⟨h1, x, L, h2, h3⟩)
          · exact h
          · exact absurd h3 (hno (x.1, base i, i) (mem_heads.2 ⟨h1, rfl, x, L, h2, rfl⟩))
    unfold popLoop
    cases htop : PQ.top q with
    | none =>
      have hnil : q.heap = [] := by simpa [PQ.top] using htop
      have he : heads n base Qs = [] := by rw [hnil] at hh; exact List.nil_perm.1 hh
      obtain ⟨s1, s2⟩ := stop fun y hy => by rw [he] at hy; cases hy
      exact ⟨q, ms, rfl, hq, ht, s1, s2⟩
    | some top =>
      dsimp only
      have hne : q.heap ≠ [] := by intro h; simp [PQ.top, h] at htop
      obtain ⟨t', q', p1, p2, -, p3, p4, p5⟩ := PQ.pop_spec smiLt_weak q hq hne
      rw [htop] at p4
      cases p4
      have hmem : top ∈ heads n base Qs := (hh.mem_iff).1 (p3.mem_iff.1 (List.mem_cons_self ..))
      obtain ⟨hi, hb, x, L, hL, hxt⟩ := mem_heads.1 hmem
      by_cases hc : strcmp term top.1 = 0
      · rw [if_pos hc, p1, Res.ok_bind]
        simp only [Res.ofOption, Res.ok_bind]
        have hmt : term = top.1 := strcmp_eq.1 hc
        have hni : top.2.2 ∉ ms := fun h => by rw [hms _ h] at hL; cases hL
        have hnd : (ms ++ [top.2.2]).Nodup := by
          rw [List.nodup_append]
          refine ⟨ht.nodup, by simp, ?_⟩
          intro a ha b hb' hab
          simp only [List.mem_singleton] at hb'
          rw [hab, hb'] at ha
          exact hni ha
        have hlt : ∀ i ∈ ms ++ [top.2.2], i < n := by
          intro i h
          rcases List.mem_append.1 h with h | h
          · exact ht.lt i h
          · simp only [List.mem_singleton] at h
            rw [h]; exact hi
        have hlen := HashSet.nodup_lt_length _ n hnd hlt
        rw [List.length_append, List.length_singleton] at hlen
        rw [if_neg (by omega)]
        -- the queue without this segment
        have hQ' : ∀ i, MTE.upd Qs top.2.2 [] i = if i = top.2.2 then [] else Qs i := fun i => rfl
        have hperm : q'.heap.Perm (heads n base (MTE.upd Qs top.2.2 [])) := by
          have h1 := heads_split (base := base) (Qs := MTE.upd Qs top.2.2 []) hi (L := x :: L) (by rw [hQ', if_pos rfl])
          have h2 : heads n base (MTE.upd (MTE.upd Qs top.2.2 []) top.2.2 (x :: L)) = heads n base Qs := by
            refine heads_same fun i _ => ?_
            unfold MTE.upd
            by_cases he : i = top.2.2
            · rw [if_pos he, he, hL]
            · rw [if_neg he, if_neg he]
          rw [h2] at h1
          have h3 := p3.trans (hh.trans h1)
          simp only [List.head?_cons, Option.map_some, Option.toList_some, List.cons_append, List.nil_append] at h3
          rw [hxt, ← hb] at h3
          exact h3.cons_inv
        have hsub : ∀ y ∈ heads n base (MTE.upd Qs top.2.2 []), y ∈ heads n base Qs := by
          intro y hy
          obtain ⟨y1, y2, z, M, y3, y4⟩ := mem_heads.1 hy
          rw [hQ'] at y3
          by_cases he : y.2.2 = top.2.2
          · rw [if_pos he] at y3; cases y3
          · rw [if_neg he] at y3
            exact mem_heads.2 ⟨y1, y2, z, M, y3, y4⟩
        obtain ⟨q2, ms2, r1, r2, r3, r4, r5⟩ := ih q' (ms ++ [top.2.2]) (MTE.upd Qs top.2.2 []) p2 hperm
          (by have := p3.length_eq; simp only [List.length_cons] at this; omega)
          ⟨hnd, hlt, by
            rw [List.pairwise_append]
            refine ⟨ht.sorted, List.pairwise_singleton _ _, ?_⟩
            intro a ha b hb'
            simp only [List.mem_singleton] at hb'
            have := hbase a ha top hmem hmt.symm
            rw [hb', ← hb]
            exact this⟩
          (by
            intro i h
            rw [hQ']
            by_cases he : i = top.2.2
            · rw [if_pos he]
            · rw [if_neg he]
              rcases List.mem_append.1 h with h | h
              · exact hms i h
              · simp only [List.mem_singleton] at h
                exact absurd h he)
          (by
            intro j hj y hy hyt
            rcases List.mem_append.1 hj with hj | hj
            · exact hbase j hj y (hsub y hy) hyt
            · simp only [List.mem_singleton] at hj
              have h1 := p5 y ((hh.mem_iff).2 (hsub y hy))
              rw [smiLt_eq] at h1
              have := (MTE.tewLt_false.1 h1).2 (by dsimp only; rw [hyt, hmt])
              dsimp only at this
              rw [hj, ← hb]
              exact this)
          (fun y hy => hge y (hsub y hy))
        have hmem' : ∀ i, i ∈ ms2 ↔ i ∈ ms ∨ (i < n ∧ ∃ x L, Qs i = x :: L ∧ x.1 = term) := by
          intro i
          rw [r5 i]
          constructor
          · rintro (h | ⟨h1, z, M, h2, h3⟩)
            · rcases List.mem_append.1 h with h | h
              · exact Or.inl h
              · simp only [List.mem_singleton] at h
                rw [h]
                exact Or.inr ⟨hi, x, L, hL, by rw [hxt, hmt]⟩
            · rw [hQ'] at h2
              by_cases he : i = top.2.2
              · rw [if_pos he] at h2; cases h2
              · rw [if_neg he] at h2
                exact Or.inr ⟨h1, z, M, h2, h3⟩
          · rintro (h | ⟨h1, z, M, h2, h3⟩)
            · exact Or.inl (List.mem_append_left _ h)
            · by_cases he : i = top.2.2
              · exact Or.inl (List.mem_append_right _ (by simp [he]))
              · exact Or.inr ⟨h1, z, M, by rw [hQ', if_neg he]; exact h2, h3⟩
        refine ⟨q2, ms2, r1, r2, ⟨r3.nodup, r3.lt, r3.sorted⟩, r4.trans (List.Perm.of_eq (heads_same fun i _ => ?_)), hmem'⟩
        by_cases he : i ∈ ms2
        · rw [if_pos he, if_pos he]
        · rw [if_neg he, if_neg he, hQ', if_neg]
          intro h2
          exact he ((hmem' i).2 (Or.inr ⟨h2 ▸ hi, x, L, h2 ▸ hL, by rw [hxt, hmt]⟩))
      · rw [if_neg hc]
        obtain ⟨s1, s2⟩ := stop fun y hy hyt => by
          have h1 := p5 y ((hh.mem_iff).2 hy)
          rw [smiLt_eq] at h1
          have h2 := (MTE.tewLt_false.1 h1).1
          dsimp only at h2
          rw [hyt] at h2
          exact hc (strcmp_eq.2 (MTE.lt_tri h2 (hge top hmem)))
        exact ⟨q, ms, rfl, hq, ht, s1, s2⟩

/-! ### The order of the segments -/

theorem flatMap_filter {α β : Type} (g : α → List β) : ∀ l : List α, l.flatMap g = (l.filter fun a => decide ((g a).length ≠ 0)).flatMap g := by
  intro l
  induction l with
  | nil => rfl
  | cons a l ih =>
    rw [List.flatMap_cons, List.filter_cons]
    cases h : g a with
    | nil => rw [if_neg (by simp), List.nil_append, ih]
    | cons b bs => rw [if_pos (by simp), List.flatMap_cons, h, ih]

/-- Taking the segments in the order of their bases is taking them in order: those with the same base as a later one have no
documents left. -/
theorem taken_order {β : Type} {n : Nat} {base : Nat → Nat} {Qs : Nat → List (Term × TI)} {ms : List Nat} (ht : Taken n base Qs ms) (g : Nat → List β)
    (hg : ∀ i, i < n → i ∉ ms → g i = []) (hb : ∀ i j, i < j → j < n → g i ≠ [] → base i < base j) :
    ms.flatMap g = (List.range n).flatMap g := by
  rw [flatMap_filter g ms, flatMap_filter g (List.range n)]
  congr 1
  have hperm : (ms.filter fun a => decide ((g a).length ≠ 0)).Perm ((List.range n).filter fun a => decide ((g a).length ≠ 0)) := by
    refine (List.perm_ext_iff_of_nodup (ht.nodup.filter _) (List.nodup_range.filter _)).2 fun i => ?_
    rw [List.mem_filter, List.mem_filter, List.mem_range]
    constructor
    · rintro ⟨h1, h2⟩; exact ⟨ht.lt i h1, h2⟩
    · rintro ⟨h1, h2⟩
      refine ⟨Classical.byContradiction fun h3 => ?_, h2⟩
      rw [hg i h1 h3] at h2
      simp at h2
  refine hperm.eq_of_pairwise (le := (· < ·)) (fun a b _ _ h1 h2 => absurd h1 (by omega)) ?_ ?_
  · have h1 := ht.sorted.and ht.nodup
    have h2 := h1.filter fun a => decide ((g a).length ≠ 0)
    refine List.Pairwise.imp_of_mem ?_ h2
    rintro a b ha hb' ⟨h3, h4⟩
    rw [List.mem_filter] at ha hb'
    have hbn : g b ≠ [] := fun h => by rw [h] at hb'; simp at hb'
    rcases Nat.lt_trichotomy a b with h | h | h
    · exact h
    · exact absurd h h4
    · have := hb b a h (ht.lt a ha.1) hbn
      omega
  · exact List.Pairwise.filter _ (List.pairwise_lt_range)

end Ferret.Merge
