import Verif.Lemmas.MultiTermEnum

/-! C23: the terms of several segments. -/

namespace Ferret.Props
open Ferret Ferret.Expand Ferret.Dict Ferret.MTE

/-! ### What the enumerator should do -/

/-- The segment was written and opened: `s.fields` are the terms of its fields that were written. -/
def WrittenSeg (s : Seg) : Prop :=
  ∃ ii si fs, WritableDict ii si s.fields ∧ writeDict ii si s.fields = .ok fs ∧ fs.tis.length < 2 ^ 64 ∧ fs.tix.length < 2 ^ 64 ∧
    sfiOpen fs = .ok s.sub.sfi ∧ s.sub.tis = fs.tis

/-- The number in segment `i` of field `f` of the reader; a negative one: the segment does not have it. -/
def numberIn (mr : MR) (i : Nat) (f : Int) : Int :=
  match mr.map with
  | none => f
  | some m => (m[i]?.bind fun r => r[f.toNat]?).getD (-1)

/-- The number is that of a field of the reader. -/
def FieldOf (mr : MR) (n : Nat) (f : Int) : Prop :=
  match mr.map with
  | none => True
  | some m => 0 ≤ f ∧ ∀ i, i < n → ∃ r, m[i]? = some r ∧ f.toNat < r.length

/-- The terms of field `f` in segment `i`. -/
def termsIn (mr : MR) (segs : List Seg) (f : Int) (i : Nat) : List (Term × TI) :=
  match segs[i]? with
  | none => []
  | some s => ((s.fields.find? fun x => decide ((x.1 : Int) = numberIn mr i f)).map (·.2)).getD []

/-- Some of the `n` segments has the term. -/
def InSome (n : Nat) (T : Nat → List (Term × TI)) (t : Term) : Prop := ∃ i, i < n ∧ ∃ e ∈ T i, e.1 = t

/-- The segments that have the term, in order, with its info there. -/
def holders (n : Nat) (T : Nat → List (Term × TI)) (t : Term) : List (Nat × TI) :=
  (List.range n).filterMap fun i => ((T i).find? fun e => decide (e.1 = t)).map fun e => (i, e.2)

/-- The least term with property `P`, if there is one. -/
def LeastTerm (P : Term → Prop) : Option Term → Prop
  | none => ∀ t, ¬ P t
  | some t => P t ∧ ∀ u, P u → ¬ u < t

/-- Which terms are still to come. -/
inductive Bound where
  | all
  | after (t : Term)
  | nothing

def Bound.has : Bound → Term → Prop
  | .all, _ => True
  | .after t, u => t < u
  | .nothing, _ => False

def Bound.past : Option Term → Bound
  | some t => .after t
  | none => .nothing

inductive MOp where
  | setField (f : Int)
  | next
  | skipTo (t : Term)

/-- A cursor: the terms of each segment in the current field, and which are still to come. -/
structure MCur where
  terms : Nat → List (Term × TI)
  bound : Bound

/-- * Setting a field goes before its first term.
* `next` gives the least term of any segment that is still to come, if any.
* `skipTo s` gives the least term of any segment that is not below `s`, if any, wherever the cursor is. -/
def MCur.Step (mr : MR) (segs : List Seg) (c : MCur) : MOp → Option Term → MCur → Prop
  | .setField f, o, c' => o = none ∧ c' = ⟨termsIn mr segs f, .all⟩
  | .next, o, c' => LeastTerm (fun t => InSome segs.length c.terms t ∧ c.bound.has t) o ∧ c' = ⟨c.terms, Bound.past o⟩
  | .skipTo s, o, c' => LeastTerm (fun t => InSome segs.length c.terms t ∧ ¬ t < s) o ∧ c' = ⟨c.terms, Bound.past o⟩

/-- What a call shows: the term, its document frequency, and its info in each segment that has it. -/
abbrev MOut := Option (Term × Nat × List (Nat × TI))

/-- The call shows the term `o`: the frequency is the sum of those of the segments, the infos are those
that were written (`obs`: the skip offset counts only if the term has enough documents to have one). -/
def MShows (segs : List Seg) (T : Nat → List (Term × TI)) : MOut → Option Term → Prop
  | none, none => True
  | some (u, df, tis), some t => u = t ∧ df = ((holders segs.length T t).map (·.2.docFreq)).sum ∧ tis.map (obs segs t) = (holders segs.length T t).map (obs segs t)
  | _, _ => False

def MCur.Runs (mr : MR) (segs : List Seg) : MCur → List MOp → List MOut → Prop
  | _, [], [] => True
  | c, op :: ops, out :: outs => ∃ o c', c.Step mr segs op o c' ∧ MShows segs c.terms out o ∧ c'.Runs mr segs ops outs
  | _, _, _ => False

/-! ### What the enumerator does -/

/-- One call. -/
def mteStep (mr : MR) (m : MTE) : MOp → Res (MTE × MOut)
  | .setField f => mteSetField mr m f >>= fun m => .ok (m, none)
  | .next => mteNext mr m >>= fun r => .ok (r.1, r.2.map fun t => (t, r.1.docFreq, r.1.tis))
  | .skipTo t => mteSkipTo mr m t >>= fun r => .ok (r.1, r.2.map fun t => (t, r.1.docFreq, r.1.tis))

def mteRun (mr : MR) : MTE → List MOp → Res (List MOut)
  | _, [] => .ok []
  | m, op :: ops => mteStep mr m op >>= fun r => mteRun mr r.1 ops >>= fun rs => .ok (r.2 :: rs)

/-- The fields that are set are fields of the reader. -/
def OpsOK (mr : MR) (n : Nat) (ops : List MOp) : Prop := ∀ f, MOp.setField f ∈ ops → FieldOf mr n f

/-! ### Proof -/

theorem WrittenSeg.ok {s : Seg} (h : WrittenSeg s) : s.OK := by
  obtain ⟨ii, si, fs, h1, h2, h3, h4, h5, h6⟩ := h
  obtain ⟨fs', e1, h7⟩ := dict_spec ii si s.fields h1.fit
  rw [h2] at e1
  cases e1
  obtain ⟨sfi, e2, -, -, hd⟩ := h7 h3 h4
  rw [h5] at e2
  cases e2
  intro f
  rw [h6]
  exact ⟨h1.asc f, hd f⟩

theorem fieldNum_ok {mr : MR} {n : Nat} {f : Int} (h : FieldOf mr n f) {i : Nat} (hi : i < n) : fieldNum mr i f = .ok (numberIn mr i f) := by
  unfold fieldNum numberIn
  unfold FieldOf at h
  cases hm : mr.map with
  | none => rfl
  | some m =>
    rw [hm] at h
    obtain ⟨h1, h2⟩ := h
    obtain ⟨r, h3, h4⟩ := h2 i hi
    dsimp only
    rw [if_neg (by omega), h3, Option.bind_some, List.getElem?_eq_getElem h4]
    rfl

theorem termsIn_eq {mr : MR} {segs : List Seg} {f : Int} {i : Nat} {s : Seg} (h : segs[i]? = some s) : termsIn mr segs f i = entriesOf s.fields (numberIn mr i f) := by
  unfold termsIn
  rw [h]; rfl

theorem entriesOf_neg (fields : List (Nat × List (Term × TI))) {n : Int} (h : n < 0) : entriesOf fields n = [] := by
  unfold entriesOf
  have : fields.find? (fun x => decide ((x.1 : Int) = n)) = none := by
    rw [List.find?_eq_none]
    intro x _ hc
    have : (x.1 : Int) = n := of_decide_eq_true hc
    omega
  rw [this]; rfl

theorem termsIn_asc {mr : MR} {segs : List Seg} (hok : ∀ s ∈ segs, s.OK) (f : Int) (i : Nat) : Asc (termsIn mr segs f i) := by
  cases hs : segs[i]? with
  | none => unfold termsIn; rw [hs]; exact List.Pairwise.nil
  | some s => rw [termsIn_eq hs]; exact (hok s (List.mem_of_getElem? hs) _).1

theorem _root_.Ferret.MTE.MOK.congr {segs : List Seg} {ns : Nat → Int} {Ls Ls' : Nat → List (Term × TI)} {m : MTE} (h : MOK segs ns Ls m) (he : ∀ i, i < segs.length → Ls i = Ls' i) : MOK segs ns Ls' m := by
  refine ⟨h.len, fun i s hs => ?_, h.queue, h.heads.trans (List.Perm.of_eq ?_)⟩
  · rw [← he i (List.getElem?_eq_some_iff.1 hs).1]
    exact h.subs i s hs
  · unfold heads
    refine filterMap_congr' fun i hi => ?_
    rw [he i (List.mem_range.1 hi)]

/-- The terms above. -/
def aboveB (t : Term) (u : Term) : Bool := decide (t < u)

theorem adv_filter {t : Term} : ∀ {L : List (Term × TI)}, Asc L → (∀ x ∈ L, ¬ x.1 < t) → adv t L = L.filter fun x => aboveB t x.1 := by
  intro L
  cases L with
  | nil => intro _ _; rfl
  | cons x L =>
    intro hs hge
    obtain ⟨h1, h2⟩ := List.pairwise_cons.1 hs
    show (if x.1 = t then L else x :: L) = _
    have hrest : ∀ y ∈ L, t < y.1 := by
      intro y hy
      have hxy := h1 y hy
      by_cases hxt : x.1 = t
      · rw [← hxt]; exact hxy
      · have : t < x.1 := Classical.byContradiction fun hn => hxt (lt_tri (hge x (List.mem_cons_self ..)) hn)
        exact List.lt_trans this hxy
    by_cases hxt : x.1 = t
    · rw [if_pos hxt, List.filter_cons_of_neg (by unfold aboveB; rw [hxt]; simp [List.lt_irrefl])]
      symm
      rw [List.filter_eq_self]
      intro y hy
      exact decide_eq_true (hrest y hy)
    · rw [if_neg hxt]
      symm
      rw [List.filter_eq_self]
      intro y hy
      rcases List.mem_cons.1 hy with rfl | hy
      · exact decide_eq_true (Classical.byContradiction fun hn => hxt (lt_tri (hge _ (List.mem_cons_self ..)) hn))
      · exact decide_eq_true (hrest y hy)

/-- One call of `next` when the terms with property `p` are to come. -/
theorem next_core (mr : MR) (segs : List Seg) (hmr : mr.subs = segs.map (·.sub)) (hok : ∀ s ∈ segs, s.OK) (ns : Nat → Int) (m : MTE) (T : Nat → List (Term × TI))
    (hasc : ∀ i, Asc (T i)) (p : Term → Bool) (hup : ∀ t u, p t = true → t < u → p u = true)
    (hm : MOK segs ns (fun i => (T i).filter fun x => p x.1) m) :
    ∃ m' r, mteNext mr m = .ok (m', r) ∧ LeastTerm (fun t => InSome segs.length T t ∧ p t = true) r ∧
      MShows segs T (r.map fun t => (t, m'.docFreq, m'.tis)) r ∧
      MOK segs ns (fun i => (T i).filter fun x => match r with | some t => aboveB t x.1 | none => false) m' ∧ m'.term = r.getD [] := by
  have hascF : ∀ i, Asc ((T i).filter fun x => p x.1) := fun i => (hasc i).sublist List.filter_sublist
  rcases mteNext_spec mr segs hmr hok ns m _ hm (fun i _ => hascF i) with ⟨h1, h2⟩ | ⟨t, m', e1, e2, e3, ⟨i0, e4⟩, e5, e6, e7⟩
  · have hnil : ∀ i, i < segs.length → ((T i).filter fun x => p x.1) = [] := by
      intro i hi
      cases hL : (T i).filter fun x => p x.1 with
      | nil => rfl
      | cons x L =>
        have := mem_heads (Ls := fun i => (T i).filter fun x => p x.1) hi hL
        rw [h1] at this
        cases this
    refine ⟨_, none, h2, ?_, trivial, ?_, rfl⟩
    · rintro t ⟨⟨i, hi, e, he, rfl⟩, hp⟩
      have : e ∈ (T i).filter fun x => p x.1 := List.mem_filter.2 ⟨he, hp⟩
      rw [hnil i hi] at this
      cases this
    · have hm' : MOK segs ns (fun i => (T i).filter fun x => p x.1) { m with term := [] } := ⟨hm.len, hm.subs, hm.queue, hm.heads⟩
      refine hm'.congr fun i hi => ?_
      rw [hnil i hi]
      simp
  · -- every term that is to come is not below t
    have hge : ∀ i, i < segs.length → ∀ x ∈ (T i).filter (fun x => p x.1), ¬ x.1 < t := by
      intro i hi x hx
      cases hL : (T i).filter fun x => p x.1 with
      | nil => rw [hL] at hx; cases hx
      | cons z L =>
        have hz := e5 _ (mem_heads (Ls := fun i => (T i).filter fun x => p x.1) hi hL)
        have ha := hascF i
        rw [hL] at hx ha
        rcases List.mem_cons.1 hx with rfl | hx
        · exact hz
        · exact lt_negTrans (List.lt_asymm ((List.pairwise_cons.1 ha).1 x hx)) hz
    obtain ⟨hi0, x0, L0, hL0, hx0⟩ := heads_mem e4
    have hx0m := List.mem_filter.1 (show x0 ∈ (T i0).filter (fun x => p x.1) by rw [hL0]; exact List.mem_cons_self ..)
    have hpt : p t = true := by rw [← hx0]; exact hx0m.2
    have hhold : holdersL segs.length t (fun i => (T i).filter fun x => p x.1) = holders segs.length T t := by
      unfold holdersL holders
      refine filterMap_congr' fun i hi => ?_
      have hi' := List.mem_range.1 hi
      dsimp only
      cases hf : (T i).find? fun e => decide (e.1 = t) with
      | none =>
        cases hL : (T i).filter fun x => p x.1 with
        | nil => rfl
        | cons z L =>
          have hz : z ∈ T i := (List.mem_filter.1 (show z ∈ (T i).filter (fun x => p x.1) by rw [hL]; exact List.mem_cons_self ..)).1
          have := List.find?_eq_none.1 hf z hz
          simp only [decide_eq_true_eq] at this
          simp [this]
      | some y =>
        have hy : y.1 = t := by simpa using List.find?_some hf
        have hym := List.mem_of_find?_eq_some hf
        have hyf : y ∈ (T i).filter (fun x => p x.1) := List.mem_filter.2 ⟨hym, by rw [hy]; exact hpt⟩
        cases hL : (T i).filter fun x => p x.1 with
        | nil => rw [hL] at hyf; cases hyf
        | cons z L =>
          have hz := hge i hi' z (by rw [hL]; exact List.mem_cons_self ..)
          have ha := hascF i
          rw [hL] at hyf ha
          rcases List.mem_cons.1 hyf with rfl | hyL
          · simp [hy]
          · have := (List.pairwise_cons.1 ha).1 y hyL
            rw [hy] at this
            exact absurd this hz
    refine ⟨m', some t, e1, ⟨⟨⟨i0, hi0, x0, hx0m.1, hx0⟩, hpt⟩, ?_⟩, ⟨rfl, ?_, ?_⟩, ?_, e2⟩
    · rintro u ⟨⟨i, hi, e, he, rfl⟩, hp⟩
      exact hge i hi e (List.mem_filter.2 ⟨he, hp⟩)
    · rw [e7, hhold]
    · rw [e6, hhold]
    · refine e3.congr fun i hi => ?_
      rw [adv_filter (hascF i) (hge i hi), List.filter_filter]
      refine List.filter_congr fun x hx => ?_
      show (aboveB t x.1 && p x.1) = aboveB t x.1
      cases hab : aboveB t x.1 with
      | false => rfl
      | true => rw [hup t x.1 hpt (of_decide_eq_true hab)]; rfl

def Bound.hasB : Bound → Term → Bool
  | .all, _ => true
  | .after t, u => aboveB t u
  | .nothing, _ => false

theorem Bound.hasB_iff (b : Bound) (t : Term) : b.hasB t = true ↔ b.has t := by
  cases b with
  | all => exact ⟨fun _ => trivial, fun _ => rfl⟩
  | after s => exact decide_eq_true_iff
  | nothing => exact ⟨fun h => (nomatch h), fun h => h.elim⟩

theorem Bound.up (b : Bound) (t u : Term) (h : b.hasB t = true) (hlt : t < u) : b.hasB u = true := by
  rw [Bound.hasB_iff] at *
  cases b with
  | all => trivial
  | after s => exact List.lt_trans h hlt
  | nothing => exact h

theorem Bound.past_hasB (r : Option Term) (x : Term) : (Bound.past r).hasB x = match r with | some t => aboveB t x | none => false := by
  cases r <;> rfl

/-- The enumerator stands where the cursor does. -/
def MStands (mr : MR) (segs : List Seg) (m : MTE) (c : MCur) : Prop :=
  ∃ f, FieldOf mr segs.length f ∧ c.terms = termsIn mr segs f ∧ MOK segs (fun i => numberIn mr i f) (fun i => (c.terms i).filter fun x => c.bound.hasB x.1) m

theorem leastTerm_congr {P Q : Term → Prop} (h : ∀ t, P t ↔ Q t) : ∀ r, LeastTerm P r → LeastTerm Q r
  | none, hr => fun t ht => hr t ((h t).2 ht)
  | some _, hr => ⟨(h _).1 hr.1, fun u hu => hr.2 u ((h u).2 hu)⟩

theorem mteStep_spec (mr : MR) (segs : List Seg) (hmr : mr.subs = segs.map (·.sub)) (hok : ∀ s ∈ segs, s.OK) (m : MTE) (c : MCur) (hst : MStands mr segs m c) (op : MOp)
    (hop : ∀ f, op = .setField f → FieldOf mr segs.length f) :
    ∃ m' out o c', mteStep mr m op = .ok (m', out) ∧ c.Step mr segs op o c' ∧ MShows segs c.terms out o ∧ MStands mr segs m' c' := by
  obtain ⟨f, hf, hT, hm⟩ := hst
  have hasc : ∀ i, Asc (c.terms i) := fun i => by rw [hT]; exact termsIn_asc hok f i
  have hempty : PQ.Inv tewLt { m.q with heap := [] } := ⟨PQ.isHeap_nil _, by have := hm.queue.mem; simp at *; omega⟩
  cases op with
  | setField g =>
    have hg := hop g rfl
    obtain ⟨tes', q', c1, c2, c3, c4, c5⟩ := eachSub_spec (setAct mr g) (fun i => numberIn mr i g) (fun i => termsIn mr segs g i) segs 0 m.tes { m.q with heap := [] } hm.len hempty (by
      intro j s e hs he
      have hj := (List.getElem?_eq_some_iff.1 hs).1
      obtain ⟨e0, h0, hat⟩ := hm.subs j s hs
      rw [he] at h0
      cases h0
      rw [Nat.zero_add]
      unfold setAct
      rw [fieldNum_ok hg hj, Res.ok_bind]
      rw [termsIn_eq hs]
      by_cases hn : 0 ≤ numberIn mr j g
      · rw [if_pos hn]
        obtain ⟨a1, a2⟩ := setField_at (hok s (List.mem_of_getElem? hs)) hat.file (numberIn mr j g)
        have := sub_step (hok s (List.mem_of_getElem? hs)) hn a2 a1
        rwa [List.drop_zero] at this
      · rw [if_neg hn, entriesOf_neg _ (by omega)]
        exact ⟨_, rfl, hat.file, fun h => absurd h hn, fun _ => ⟨(by decide : (-1 : Int) < 0), rfl⟩⟩)
    refine ⟨{ m with tes := tes', q := q' }, none, none, ⟨termsIn mr segs g, .all⟩, ?_, ⟨rfl, rfl⟩, trivial, g, hg, rfl, c2, ?_, c3, ?_⟩
    · simp only [mteStep, mteSetField]
      rw [hmr, c1]
      rfl
    · intro i s hs
      have := c5 i s hs
      rw [Nat.zero_add] at this
      have hall : ((termsIn mr segs g i).filter fun x => Bound.all.hasB x.1) = termsIn mr segs g i := by rw [List.filter_eq_self]; intro _ _; rfl
      dsimp only
      rw [hall]
      exact this
    · refine c4.trans (List.Perm.of_eq ?_)
      rw [List.nil_append, ← List.range_eq_range']
      unfold heads
      refine filterMap_congr' fun i _ => ?_
      have hall : ((termsIn mr segs g i).filter fun x => Bound.all.hasB x.1) = termsIn mr segs g i := by rw [List.filter_eq_self]; intro _ _; rfl
      dsimp only
      rw [hall]
  | next =>
    obtain ⟨m', r, e1, e2, e3, e4, -⟩ := next_core mr segs hmr hok _ m c.terms hasc c.bound.hasB c.bound.up hm
    refine ⟨m', _, r, ⟨c.terms, Bound.past r⟩, ?_, ⟨leastTerm_congr (fun t => by rw [Bound.hasB_iff]) r e2, rfl⟩, e3, f, hf, hT, ?_⟩
    · simp only [mteStep]
      rw [e1, Res.ok_bind]
    · refine e4.congr fun i _ => ?_
      refine List.filter_congr fun x _ => ?_
      rw [Bound.past_hasB]
  | skipTo s =>
    obtain ⟨tes', q', c1, c2, c3, c4, c5⟩ := eachSub_spec (skipAct s) (fun i => numberIn mr i f) (fun i => (c.terms i).filter fun x => decide (¬ x.1 < s)) segs 0 m.tes { m.q with heap := [] } hm.len hempty (by
      intro j sg e hs he
      have hj := (List.getElem?_eq_some_iff.1 hs).1
      obtain ⟨e0, h0, hat⟩ := hm.subs j sg hs
      rw [he] at h0
      cases h0
      rw [Nat.zero_add, hT, termsIn_eq hs]
      unfold skipAct
      by_cases hn : 0 ≤ numberIn mr j f
      · obtain ⟨h1, h2⟩ := hat.live hn
        rw [if_pos (by rw [h1]; exact hn)]
        obtain ⟨e', s1, s2, -⟩ := sub_scan (hok sg (List.mem_of_getElem? hs)) hn h1 (by
          rcases h2 with ⟨k, h2, -⟩ | ⟨h2, -⟩
          · exact Or.inl ⟨_, h2⟩
          · exact h2.imp (fun h => ⟨_, h⟩) id) s
        exact ⟨e', s1, s2⟩
      · obtain ⟨h1, -⟩ := hat.dead (by omega)
        rw [if_neg (by omega), entriesOf_neg _ (by omega)]
        exact ⟨e, rfl, hat.file, fun h => absurd h hn, fun _ => ⟨h1, rfl⟩⟩)
    have hm' : MOK segs (fun i => numberIn mr i f) (fun i => (c.terms i).filter fun x => decide (¬ x.1 < s)) { m with tes := tes', q := q' } := by
      refine ⟨c2, fun i sg hs => ?_, c3, ?_⟩
      · have := c5 i sg hs
        rwa [Nat.zero_add] at this
      · refine c4.trans (List.Perm.of_eq ?_)
        rw [List.nil_append, ← List.range_eq_range']
        rfl
    obtain ⟨m', r, e1, e2, e3, e4, -⟩ := next_core mr segs hmr hok _ _ c.terms hasc (fun t => decide (¬ t < s)) (fun t u h1 h2 => by
      have h1' : ¬ t < s := of_decide_eq_true h1
      exact decide_eq_true fun h3 => h1' (List.lt_trans h2 h3)) hm'
    refine ⟨m', _, r, ⟨c.terms, Bound.past r⟩, ?_, ⟨leastTerm_congr (fun t => by rw [decide_eq_true_iff]) r e2, rfl⟩, e3, f, hf, hT, ?_⟩
    · simp only [mteStep, mteSkipTo]
      rw [hmr, c1, Res.ok_bind]
      dsimp only
      rw [e1, Res.ok_bind]
    · refine e4.congr fun i _ => ?_
      refine List.filter_congr fun x _ => ?_
      rw [Bound.past_hasB]

theorem mteRun_spec (mr : MR) (segs : List Seg) (hmr : mr.subs = segs.map (·.sub)) (hok : ∀ s ∈ segs, s.OK) : ∀ (ops : List MOp) (m : MTE) (c : MCur), MStands mr segs m c → OpsOK mr segs.length ops →
    ∃ outs, mteRun mr m ops = .ok outs ∧ c.Runs mr segs ops outs := by
  intro ops
  induction ops with
  | nil => intro m c _ _; exact ⟨[], rfl, trivial⟩
  | cons op ops ih =>
    intro m c hst hops
    obtain ⟨m', out, o, c', e1, e2, e3, e4⟩ := mteStep_spec mr segs hmr hok m c hst op fun f hf => hops f (by rw [hf]; exact List.mem_cons_self ..)
    obtain ⟨outs, e5, e6⟩ := ih m' c' e4 fun f hf => hops f (List.mem_cons_of_mem _ hf)
    refine ⟨out :: outs, ?_, o, c', e2, e3, e6⟩
    unfold mteRun
    rw [e1, Res.ok_bind]
    dsimp only
    rw [e5, Res.ok_bind]

/-- The enumerator that is made without a term. -/
theorem mteNew_none (mr : MR) (segs : List Seg) (hmr : mr.subs = segs.map (·.sub)) (hok : ∀ s ∈ segs, s.OK) (f : Int) (hf : FieldOf mr segs.length f) :
    ∃ m, mteNew mr f none = .ok m ∧ MStands mr segs m ⟨termsIn mr segs f, .all⟩ := by
  obtain ⟨tes', q', c1, c2, c3, c4, c5⟩ := eachSub_spec (newAct mr f none) (fun i => numberIn mr i f) (fun i => termsIn mr segs f i) segs 0 (segs.map fun s => steNew s.sub.tis) (PQ.new segs.length) (by simp) (PQ.inv_new _ _) (by
      intro j s e hs he
      have hj := (List.getElem?_eq_some_iff.1 hs).1
      rw [List.getElem?_map, hs] at he
      cases he
      rw [Nat.zero_add]
      unfold newAct
      rw [fieldNum_ok hf hj, Res.ok_bind, termsIn_eq hs]
      by_cases hn : 0 ≤ numberIn mr j f
      · rw [if_pos hn]
        obtain ⟨a1, a2⟩ := setField_at (hok s (List.mem_of_getElem? hs)) (show (steNew s.sub.tis).file = _ from rfl) (numberIn mr j f)
        have := sub_step (hok s (List.mem_of_getElem? hs)) hn a2 a1
        rwa [List.drop_zero] at this
      · rw [if_neg hn, entriesOf_neg _ (by omega)]
        refine ⟨_, rfl, ?_, fun h => absurd h hn, fun _ => ⟨(by decide : (-1 : Int) < 0), rfl⟩⟩
        exact (setField_at (hok s (List.mem_of_getElem? hs)) (show (steNew s.sub.tis).file = _ from rfl) 0).1.file)
  refine ⟨⟨tes', q', [], 0, []⟩, ?_, f, hf, rfl, c2, ?_, c3, ?_⟩
  · unfold mteNew
    rw [hmr, List.length_map, List.map_map]
    rw [show (fun s => steNew s.tis) ∘ (fun s : Seg => s.sub) = fun s => steNew s.sub.tis from rfl, c1, Res.ok_bind]
    dsimp only
    rw [if_neg (by simp)]
  · intro i s hs
    have := c5 i s hs
    rw [Nat.zero_add] at this
    have hall : ((termsIn mr segs f i).filter fun x => Bound.all.hasB x.1) = termsIn mr segs f i := by rw [List.filter_eq_self]; intro _ _; rfl
    dsimp only
    rw [hall]
    exact this
  · refine c4.trans (List.Perm.of_eq ?_)
    rw [show (PQ.new segs.length : PQ.PQ (Term × Nat)).heap = [] from rfl, List.nil_append, ← List.range_eq_range']
    unfold heads
    refine filterMap_congr' fun i _ => ?_
    have hall : ((termsIn mr segs f i).filter fun x => Bound.all.hasB x.1) = termsIn mr segs f i := by rw [List.filter_eq_self]; intro _ _; rfl
    dsimp only
    rw [hall]

/-- The enumerator that is made with a term `t` to start from. -/
theorem mteNew_some (mr : MR) (segs : List Seg) (hmr : mr.subs = segs.map (·.sub)) (hok : ∀ s ∈ segs, s.OK) (f : Int) (hf : FieldOf mr segs.length f) (t : Term)
    (hne : t ≠ [] ∨ ¬ InSome segs.length (termsIn mr segs f) []) :
    ∃ m r, mteNew mr f (some t) = .ok m ∧ LeastTerm (fun u => InSome segs.length (termsIn mr segs f) u ∧ ¬ u < t) r ∧ m.term = r.getD [] ∧
      MShows segs (termsIn mr segs f) (r.map fun u => (u, m.docFreq, m.tis)) r ∧ MStands mr segs m ⟨termsIn mr segs f, Bound.past r⟩ := by
  have hasc : ∀ i, Asc (termsIn mr segs f i) := fun i => termsIn_asc hok f i
  obtain ⟨tes', q', c1, c2, c3, c4, c5⟩ := eachSub_spec (newAct mr f (some t)) (fun i => numberIn mr i f) (fun i => (termsIn mr segs f i).filter fun x => decide (¬ x.1 < t)) segs 0 (segs.map fun s => steNew s.sub.tis) (PQ.new segs.length) (by simp) (PQ.inv_new _ _) (by
      intro j s e hs he
      have hj := (List.getElem?_eq_some_iff.1 hs).1
      rw [List.getElem?_map, hs] at he
      cases he
      rw [Nat.zero_add]
      unfold newAct
      rw [fieldNum_ok hf hj, Res.ok_bind, termsIn_eq hs]
      by_cases hn : 0 ≤ numberIn mr j f
      · rw [if_pos hn]
        obtain ⟨a1, a2⟩ := setField_at (hok s (List.mem_of_getElem? hs)) (show (steNew s.sub.tis).file = _ from rfl) (numberIn mr j f)
        obtain ⟨e', s1, s2, s3⟩ := sub_scan (hok s (List.mem_of_getElem? hs)) hn a2 (Or.inl ⟨_, a1⟩) t
        dsimp only
        rw [s1, Res.ok_bind]
        refine ⟨e', ?_, s2⟩
        dsimp only
        rw [s3]
        cases hh : ((entriesOf s.fields (numberIn mr j f)).filter fun x => decide (¬ x.1 < t)).head? with
        | none => simp
        | some x =>
          have hxm := List.mem_filter.1 (List.mem_of_head? hh)
          have : x.1 ≠ [] := by
            rcases hne with h | h
            · intro hx
              have := of_decide_eq_true hxm.2
              rw [hx] at this
              cases t with
              | nil => exact h rfl
              | cons a t => exact this (List.nil_lt_cons _ _)
            · intro hx
              exact h ⟨j, hj, x, by rw [termsIn_eq hs]; exact hxm.1, hx⟩
          simp [this]
      · rw [if_neg hn, entriesOf_neg _ (by omega)]
        refine ⟨_, rfl, ?_, fun h => absurd h hn, fun _ => ⟨(by decide : (-1 : Int) < 0), rfl⟩⟩
        exact (setField_at (hok s (List.mem_of_getElem? hs)) (show (steNew s.sub.tis).file = _ from rfl) 0).1.file)
  have hm : MOK segs (fun i => numberIn mr i f) (fun i => (termsIn mr segs f i).filter fun x => decide (¬ x.1 < t)) ⟨tes', q', [], 0, []⟩ := by
    refine ⟨c2, fun i sg hs => ?_, c3, ?_⟩
    · have := c5 i sg hs
      rwa [Nat.zero_add] at this
    · refine c4.trans (List.Perm.of_eq ?_)
      rw [show (PQ.new segs.length : PQ.PQ (Term × Nat)).heap = [] from rfl, List.nil_append, ← List.range_eq_range']
      rfl
  obtain ⟨m', r, e1, e2, e3, e4, e5⟩ := next_core mr segs hmr hok _ _ (termsIn mr segs f) hasc (fun u => decide (¬ u < t)) (fun u v h1 h2 => by
      have h1' : ¬ u < t := of_decide_eq_true h1
      exact decide_eq_true fun h3 => h1' (List.lt_trans h2 h3)) hm
  have hnew : mteNew mr f (some t) = if q'.heap.length > 0 then .ok m' else .ok ⟨tes', q', [], 0, []⟩ := by
    unfold mteNew
    rw [hmr, List.length_map, List.map_map]
    rw [show (fun s => steNew s.tis) ∘ (fun s : Seg => s.sub) = fun s => steNew s.sub.tis from rfl, c1, Res.ok_bind]
    dsimp only
    rw [e1, Res.ok_bind]
    simp
  have hleast := leastTerm_congr (Q := fun u => InSome segs.length (termsIn mr segs f) u ∧ ¬ u < t) (fun u => by rw [decide_eq_true_iff]) r e2
  by_cases hq : q'.heap.length > 0
  · rw [if_pos hq] at hnew
    refine ⟨m', r, hnew, hleast, e5, e3, f, hf, rfl, ?_⟩
    refine e4.congr fun i _ => ?_
    refine List.filter_congr fun x _ => ?_
    rw [Bound.past_hasB]
  · rw [if_neg hq] at hnew
    have hnil : q'.heap = [] := List.length_eq_zero_iff.1 (by omega)
    have hr : r = none ∧ m' = ⟨tes', q', [], 0, []⟩ := by
      unfold mteNext at e1
      simp only [PQ.top, hnil, List.head?_nil] at e1
      cases e1
      exact ⟨rfl, rfl⟩
    obtain ⟨rfl, rfl⟩ := hr
    refine ⟨_, none, hnew, hleast, rfl, trivial, f, hf, rfl, ?_⟩
    exact e4.congr fun i _ => rfl

/-- **C23, enumeration.** Over any segments that were written and opened — with the same fields or
numbered by a map — the enumerator of a field gives, in any sequence of calls (setting fields, stepping,
seeking terms forwards and backwards, also after the end), the least term of any segment that is still
to come, once, with the sum of the segments' document frequencies and the infos written in each segment
that has it. -/
theorem c23_enumerator (mr : MR) (segs : List Seg) (hmr : mr.subs = segs.map (·.sub)) (hw : ∀ s ∈ segs, WrittenSeg s) (f : Int) (hf : FieldOf mr segs.length f) (ops : List MOp) (hops : OpsOK mr segs.length ops) :
    ∃ m outs, mteNew mr f none = .ok m ∧ mteRun mr m ops = .ok outs ∧ MCur.Runs mr segs ⟨termsIn mr segs f, .all⟩ ops outs := by
  have hok : ∀ s ∈ segs, s.OK := fun s hs => (hw s hs).ok
  obtain ⟨m, e1, e2⟩ := mteNew_none mr segs hmr hok f hf
  obtain ⟨outs, e3, e4⟩ := mteRun_spec mr segs hmr hok ops m _ e2 hops
  exact ⟨m, outs, e1, e3, e4⟩

/-- **C61, enumeration from a term.** Made to start from `t`, the enumerator stands on the least term of
any segment that is not below `t`, and goes on from there — provided that `t` is not empty or no segment
has the empty term. -/
theorem c61_terms_from_partial (mr : MR) (segs : List Seg) (hmr : mr.subs = segs.map (·.sub)) (hw : ∀ s ∈ segs, WrittenSeg s) (f : Int) (hf : FieldOf mr segs.length f) (t : Term)
    (hne : t ≠ [] ∨ ¬ InSome segs.length (termsIn mr segs f) []) (ops : List MOp) (hops : OpsOK mr segs.length ops) :
    ∃ m r outs, mteNew mr f (some t) = .ok m ∧ LeastTerm (fun u => InSome segs.length (termsIn mr segs f) u ∧ ¬ u < t) r ∧
      m.term = r.getD [] ∧ MShows segs (termsIn mr segs f) (r.map fun u => (u, m.docFreq, m.tis)) r ∧
      mteRun mr m ops = .ok outs ∧ MCur.Runs mr segs ⟨termsIn mr segs f, Bound.past r⟩ ops outs := by
  have hok : ∀ s ∈ segs, s.OK := fun s hs => (hw s hs).ok
  obtain ⟨m, r, e1, e2, e3, e4, e5⟩ := mteNew_some mr segs hmr hok f hf t hne
  obtain ⟨outs, e6, e7⟩ := mteRun_spec mr segs hmr hok ops m _ e5 hops
  exact ⟨m, r, outs, e1, e2, e3, e4, e6, e7⟩

/-- The terms given by calls of `next`. -/
def givenTerms (outs : List MOut) : List Term := outs.filterMap fun o => o.map (·.1)

theorem nexts_sorted (mr : MR) (segs : List Seg) : ∀ (k : Nat) (c : MCur) (outs : List MOut), c.Runs mr segs (List.replicate k .next) outs →
    (givenTerms outs).Pairwise (· < ·) ∧ (∀ t ∈ givenTerms outs, InSome segs.length c.terms t ∧ c.bound.has t) ∧
    (none ∈ outs → ∀ t, InSome segs.length c.terms t → c.bound.has t → t ∈ givenTerms outs) ∧ outs.length = k := by
  intro k
  induction k with
  | zero =>
    intro c outs h
    cases outs with
    | nil => exact ⟨List.Pairwise.nil, fun t ht => (nomatch ht), fun h => (nomatch h), rfl⟩
    | cons o outs => exact h.elim
  | succ k ih =>
    intro c outs h
    cases outs with
    | nil => exact h.elim
    | cons out outs =>
      obtain ⟨o, c', ⟨h1, rfl⟩, h3, h4⟩ := h
      obtain ⟨i1, i2, i3, i4⟩ := ih _ _ h4
      cases o with
      | none =>
        have hout : out = none := by
          cases out with
          | none => rfl
          | some x => exact h3.elim
        subst hout
        have hg : givenTerms (none :: outs) = givenTerms outs := rfl
        rw [hg]
        have hnil : givenTerms outs = [] := by
          cases hh : givenTerms outs with
          | nil => rfl
          | cons t l => exact ((i2 t (by rw [hh]; exact List.mem_cons_self ..)).2).elim
        rw [hnil]
        exact ⟨List.Pairwise.nil, fun t ht => (nomatch ht), fun _ t ht hb => absurd ⟨ht, hb⟩ (h1 t), by simp [i4]⟩
      | some t =>
        obtain ⟨df, tis, hout⟩ : ∃ df tis, out = some (t, df, tis) := by
          cases out with
          | none => exact h3.elim
          | some x => obtain ⟨u, df, tis⟩ := x; exact ⟨df, tis, by rw [h3.1]⟩
        subst hout
        have hg : givenTerms (some (t, df, tis) :: outs) = t :: givenTerms outs := rfl
        rw [hg]
        refine ⟨List.pairwise_cons.2 ⟨fun u hu => (i2 u hu).2, i1⟩, ?_, ?_, by simp [i4]⟩
        · intro u hu
          rcases List.mem_cons.1 hu with rfl | hu
          · exact h1.1
          · refine ⟨(i2 u hu).1, ?_⟩
            have h5 : t < u := (i2 u hu).2
            have h6 := h1.1.2
            rw [← Bound.hasB_iff] at h6 ⊢
            exact c.bound.up t u h6 h5
        · intro hn u hu hb
          have hn' : none ∈ outs := by
            rcases List.mem_cons.1 hn with h | h
            · cases h
            · exact h
          by_cases hut : u = t
          · rw [hut]; exact List.mem_cons_self ..
          · refine List.mem_cons_of_mem _ (i3 hn' u hu ?_)
            exact Classical.byContradiction fun h => hut (lt_tri (h1.2 u ⟨hu, hb⟩) h)

/-- **C23, the sorted union.** Stepping `k` times from the start of a field gives terms in strictly
increasing order, all of them terms of some segment; once the end is reported, every term of every
segment has been given. -/
theorem c23_sorted_union (mr : MR) (segs : List Seg) (hmr : mr.subs = segs.map (·.sub)) (hw : ∀ s ∈ segs, WrittenSeg s) (f : Int) (hf : FieldOf mr segs.length f) (k : Nat) :
    ∃ m outs, mteNew mr f none = .ok m ∧ mteRun mr m (List.replicate k .next) = .ok outs ∧ outs.length = k ∧
      (givenTerms outs).Pairwise (· < ·) ∧ (∀ t ∈ givenTerms outs, InSome segs.length (termsIn mr segs f) t) ∧
      (none ∈ outs → ∀ t, t ∈ givenTerms outs ↔ InSome segs.length (termsIn mr segs f) t) := by
  obtain ⟨m, outs, e1, e2, e3⟩ := c23_enumerator mr segs hmr hw f hf (List.replicate k .next) (by
    intro g hg
    have := (List.mem_replicate.1 hg).2
    cases this)
  obtain ⟨h1, h2, h3, h4⟩ := nexts_sorted mr segs k _ outs e3
  exact ⟨m, outs, e1, e2, h4, h1, fun t ht => (h2 t ht).1, fun hn t => ⟨fun ht => (h2 t ht).1, fun ht => h3 hn t ht trivial⟩⟩

/-! ### Document frequencies -/

/-- The lookups of the sub readers are in order. -/
def LookupsOK (segs : List Seg) (rs : List TIR) : Prop := rs.length = segs.length ∧ ∀ (i : Nat) (s : Seg) (r : TIR), segs[i]? = some s → rs[i]? = some r → ReaderOK s.sub.sfi s.sub.tis s.fields r

theorem srDocFreq_spec {s : Seg} (hok : s.OK) (r : TIR) (hr : ReaderOK s.sub.sfi s.sub.tis s.fields r) (f : Int) (t : Term) :
    ∃ r', srDocFreq s.sub r f t = .ok (r', ((entryOf s.fields f t).map (·.2.docFreq)).getD 0) ∧ ReaderOK s.sub.sfi s.sub.tis s.fields r' := by
  obtain ⟨r', o, h1, h2, h3⟩ := lookup_spec hok r hr f t
  have he : tirGetTi s.sub.sfi s.sub.tis (tirSetField s.sub.sfi s.sub.tis r f) t = tirGetTiField s.sub.sfi s.sub.tis r f t := by
    unfold tirGetTiField tirSetField
    by_cases hf : f ≠ r.field
    · rw [if_pos hf, if_pos hf]
    · rw [if_neg hf, if_neg hf]
      rfl
  refine ⟨r', ?_, h2⟩
  unfold srDocFreq
  rw [he, h1, Res.ok_bind]
  congr 2
  cases o with
  | none =>
    cases hx : entryOf s.fields f t with
    | none => rfl
    | some x => rw [hx] at h3; cases h3
  | some ti =>
    cases hx : entryOf s.fields f t with
    | none => rw [hx] at h3; cases h3
    | some x =>
      rw [hx] at h3
      simp only [Option.map_some, Option.some.injEq] at h3
      have := congrArg (·.2.1) h3
      exact this

/-- The sum of the frequencies of the term in the first `k` segments. -/
def totalFreq (mr : MR) (segs : List Seg) (f : Int) (t : Term) (k : Nat) : Nat :=
  ((holders k (termsIn mr segs f) t).map (·.2.docFreq)).sum

theorem holders_succ (T : Nat → List (Term × TI)) (t : Term) (k : Nat) : ((holders (k + 1) T t).map (·.2.docFreq)).sum =
    ((holders k T t).map (·.2.docFreq)).sum + (((T k).find? fun e => decide (e.1 = t)).map (·.2.docFreq)).getD 0 := by
  unfold holders
  rw [List.range_succ, List.filterMap_append, List.map_append, List.sum_append]
  congr 1
  rw [List.filterMap_cons]
  cases (T k).find? fun e => decide (e.1 = t) with
  | none => rfl
  | some e => simp

theorem docFreqLoop_spec (mr : MR) (segs : List Seg) (hmr : mr.subs = segs.map (·.sub)) (hok : ∀ s ∈ segs, s.OK) (f : Int) (hf : FieldOf mr segs.length f) (t : Term) :
    ∀ (k : Nat) (rs : List TIR) (total : Nat), k ≤ segs.length → LookupsOK segs rs →
      ∃ rs', docFreqLoop mr f t k rs total = .ok (rs', total + totalFreq mr segs f t k) ∧ LookupsOK segs rs' := by
  intro k
  induction k with
  | zero => intro rs total _ h; exact ⟨rs, rfl, h⟩
  | succ k ih =>
    intro rs total hk hl
    have hseg : segs[k]? = some segs[k] := List.getElem?_eq_getElem hk
    have hT := termsIn_eq (mr := mr) (f := f) hseg
    unfold docFreqLoop
    rw [fieldNum_ok hf hk, Res.ok_bind]
    unfold totalFreq
    rw [holders_succ]
    by_cases hn : numberIn mr k f ≥ 0
    · rw [if_pos hn]
      have hr : rs[k]? = some (rs[k]'(by rw [hl.1]; exact hk)) := List.getElem?_eq_getElem _
      obtain ⟨r', h1, h2⟩ := srDocFreq_spec (hok _ (List.getElem_mem hk)) _ (hl.2 k _ _ hseg hr) (numberIn mr k f) t
      have hsub : mr.subs[k]? = some segs[k].sub := by rw [hmr, List.getElem?_map, hseg]; rfl
      rw [hsub, hr]
      simp only [Res.ofOption, Res.ok_bind]
      rw [h1, Res.ok_bind]
      obtain ⟨rs', h3, h4⟩ := ih (rs.set k r') (total + ((entryOf segs[k].fields (numberIn mr k f) t).map (·.2.docFreq)).getD 0) (by omega) ⟨by simp [hl.1], fun i s r hs hr' => by
        by_cases hik : i = k
        · subst hik
          rw [List.getElem?_set_self (by rw [hl.1]; exact hk)] at hr'
          rw [hseg] at hs
          cases hs
          cases hr'
          exact h2
        · rw [List.getElem?_set_ne (by omega)] at hr'
          exact hl.2 i s r hs hr'⟩
      refine ⟨rs', ?_, h4⟩
      rw [h3, hT]
      unfold totalFreq
      have : entryOf segs[k].fields (numberIn mr k f) t = (entriesOf segs[k].fields (numberIn mr k f)).find? fun e => decide (e.1 = t) := rfl
      rw [this]
      congr 2
      omega
    · rw [if_neg hn]
      obtain ⟨rs', h3, h4⟩ := ih rs total (by omega) hl
      refine ⟨rs', ?_, h4⟩
      rw [h3, hT, entriesOf_neg _ (by omega)]
      rfl

/-- Asking for the document frequency of terms of fields, one after the other. -/
def freqRun (mr : MR) : List TIR → List (Int × Term) → Res (List Nat)
  | _, [] => .ok []
  | rs, (f, t) :: qs => mrDocFreq mr rs f t >>= fun x => freqRun mr x.1 qs >>= fun xs => .ok (x.2 :: xs)

/-- **C23, document frequency.** The document frequency of a term over several segments is, in any
sequence of calls, the sum of the frequencies written in the segments. -/
theorem c23_doc_freq (mr : MR) (segs : List Seg) (hmr : mr.subs = segs.map (·.sub)) (hw : ∀ s ∈ segs, WrittenSeg s) (qs : List (Int × Term)) (hq : ∀ q ∈ qs, FieldOf mr segs.length q.1) :
    freqRun mr (segs.map fun _ => tirOpen) qs = .ok (qs.map fun q => ((holders segs.length (termsIn mr segs q.1) q.2).map (·.2.docFreq)).sum) := by
  have hok : ∀ s ∈ segs, s.OK := fun s hs => (hw s hs).ok
  have key : ∀ (qs : List (Int × Term)) (rs : List TIR), (∀ q ∈ qs, FieldOf mr segs.length q.1) → LookupsOK segs rs →
      freqRun mr rs qs = .ok (qs.map fun q => ((holders segs.length (termsIn mr segs q.1) q.2).map (·.2.docFreq)).sum) := by
    intro qs
    induction qs with
    | nil => intros; rfl
    | cons q qs ih =>
      intro rs hq hl
      obtain ⟨f, t⟩ := q
      obtain ⟨rs', h1, h2⟩ := docFreqLoop_spec mr segs hmr hok f (hq (f, t) (List.mem_cons_self ..)) t segs.length rs 0 (Nat.le_refl _) hl
      unfold freqRun mrDocFreq
      rw [hmr, List.length_map, h1, Res.ok_bind]
      dsimp only
      rw [ih rs' (fun q hq' => hq q (List.mem_cons_of_mem _ hq')) h2, Res.ok_bind, Nat.zero_add]
      rfl
  refine key qs _ hq ⟨by simp, fun i s r hs hr => ?_⟩
  rw [List.getElem?_map, hs] at hr
  cases hr
  exact readerOK_open (hok s (List.mem_of_getElem? hs))

/-! ### Examples -/

/-- A written and opened segment. -/
def openSeg (ii si : Nat) (fields : List (Nat × List (Term × TI))) : Res Seg :=
  writeDict ii si fields >>= fun fs => sfiOpen fs >>= fun sfi => .ok ⟨⟨sfi, fs.tis⟩, fields⟩

/-- Enumerating two segments of two fields; the second has the fields in the other order. -/
def run23 (term : Option Term) (ops : List MOp) : Res (Term × List MOut) :=
  openSeg 128 16 [(0, [([], ⟨1, 0, 0, 0⟩), ([98], ⟨2, 1, 1, 0⟩)])] >>= fun a =>
  openSeg 128 16 [(1, [([98], ⟨3, 0, 0, 0⟩), ([99], ⟨1, 3, 3, 0⟩)])] >>= fun b =>
  let mr : MR := ⟨[a.sub, b.sub], some [[0, -1], [1, 0]]⟩
  mteNew mr 0 term >>= fun m => mteRun mr m ops >>= fun r => .ok (m.term, r)

example : run23 none [.next, .next, .next, .next, .next, .skipTo [98], .next, .setField 1, .next] = .ok ([],
    [some ([], 1, [(0, ⟨1, 0, 0, 0⟩)]), some ([98], 5, [(0, ⟨2, 1, 1, 0⟩), (1, ⟨3, 0, 0, 0⟩)]), some ([99], 1, [(1, ⟨1, 3, 3, 0⟩)]), none, none,
     some ([98], 5, [(0, ⟨2, 1, 1, 0⟩), (1, ⟨3, 0, 0, 0⟩)]), some ([99], 1, [(1, ⟨1, 3, 3, 0⟩)]), none, none]) := by rfl

example : run23 (some [98]) [.next, .next] = .ok ([98], [some ([99], 1, [(1, ⟨1, 3, 3, 0⟩)]), none]) := by rfl

/-- **C61, the empty term.** An enumerator made to start from the empty term loses every segment that
has the empty term: here it stands on "b" of the second segment alone, and neither the empty term nor
the two documents with "b" in the first segment are seen. -/
theorem c61_empty_term_loses_segment : run23 (some []) [.next, .next] = .ok ([98], [some ([99], 1, [(1, ⟨1, 3, 3, 0⟩)]), none]) ∧
    ∃ m, run23 none [.next, .next] = .ok (m, [some ([], 1, [(0, ⟨1, 0, 0, 0⟩)]), some ([98], 5, [(0, ⟨2, 1, 1, 0⟩), (1, ⟨3, 0, 0, 0⟩)])]) :=
  ⟨by rfl, [], by rfl⟩

theorem written_of {ii si : Nat} {fields : List (Nat × List (Term × TI))} (h : WritableDict ii si fields) (hsz : ∀ fs, writeDict ii si fields = .ok fs → fs.tis.length < 2 ^ 64 ∧ fs.tix.length < 2 ^ 64) :
    ∃ s, openSeg ii si fields = .ok s ∧ s.fields = fields ∧ WrittenSeg s := by
  obtain ⟨fs, e1, h1⟩ := dict_spec ii si fields h.fit
  obtain ⟨l1, l2⟩ := hsz fs e1
  obtain ⟨sfi, e2, -⟩ := h1 l1 l2
  refine ⟨⟨⟨sfi, fs.tis⟩, fields⟩, ?_, rfl, ii, si, fs, h, e1, l1, l2, e2, rfl⟩
  unfold openSeg
  rw [e1, Res.ok_bind, e2]
  rfl

/-- The two segments of the examples are written and opened. -/
example : (∃ s, openSeg 128 16 [(0, [([], ⟨1, 0, 0, 0⟩), ([98], ⟨2, 1, 1, 0⟩)])] = .ok s ∧ WrittenSeg s) ∧
    FieldOf ⟨[], some [[0, -1], [1, 0]]⟩ 2 0 ∧ FieldOf ⟨[], some [[0, -1], [1, 0]]⟩ 2 1 := by
  refine ⟨?_, ⟨by decide, fun i hi => ?_⟩, ⟨by decide, fun i hi => ?_⟩⟩
  · obtain ⟨s, h1, -, h2⟩ := written_of (ii := 128) (si := 16) (fields := [(0, [([], ⟨1, 0, 0, 0⟩), ([98], ⟨2, 1, 1, 0⟩)])])
      ⟨by decide, by decide, by decide, by decide, by decide, by decide, by decide, by
        intro x hx
        simp only [List.mem_cons, List.not_mem_nil, or_false] at hx
        subst hx
        exact ⟨by decide, by decide, by decide, by decide⟩⟩ (by
        intro fs h
        have : writeDict 128 16 [(0, [([], ⟨1, 0, 0, 0⟩), ([98], ⟨2, 1, 1, 0⟩)])] = .ok ⟨[0, 0, 0, 0, 0, 0], [0, 0, 1, 0, 0, 0, 1, 98, 2, 1, 1], [0, 0, 0, 1, 128, 1, 16, 0, 0, 0, 1, 2]⟩ := by rfl
        rw [this] at h
        cases h
        exact ⟨by decide, by decide⟩)
    exact ⟨s, h1, h2⟩
  · match i, hi with
    | 0, _ => exact ⟨_, rfl, by decide⟩
    | 1, _ => exact ⟨_, rfl, by decide⟩
  · match i, hi with
    | 0, _ => exact ⟨_, rfl, by decide⟩
    | 1, _ => exact ⟨_, rfl, by decide⟩

#print axioms c23_enumerator
#print axioms c23_sorted_union
#print axioms c23_doc_freq
#print axioms c61_terms_from_partial
#print axioms c61_empty_term_loses_segment
end Ferret.Props
