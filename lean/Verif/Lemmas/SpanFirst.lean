import Verif.Lemmas.Span

/-! The enumerators of the spans that end early, and of the spans that overlap no others. -/

namespace Ferret.Span

open Ferret.Spec (SpLe SpLex Proper Overlap)

variable {σ : Type} {o : Ops σ} {R : σ → Caps → Option Sp → List Sp → Prop} {D : σ → Caps → Prop}

/-! ### SpanFirstEnum -/

def early (limit : Int) (x : Sp) : Bool := decide (x.stop ≤ limit)

def FirstR (R : σ → Caps → Option Sp → List Sp → Prop) (e : FirstE σ) (k : Caps) (c : Option Sp) (L : List Sp) : Prop :=
  ∃ L', R e.sub k c L' ∧ Ord (c.toList ++ L') ∧ L = L'.filter (early e.limit)

def FirstD (D : σ → Caps → Prop) (e : FirstE σ) (k : Caps) : Prop := D e.sub k

theorem firstLoop_spec (g : Good o R D) (limit : Int) (k : Caps) : ∀ (fuel : Nat) (L : List Sp) (c : Option Sp) (s : σ),
    R s k c L → Ord (c.toList ++ L) → L.length < fuel →
    ∃ r, firstLoop o limit fuel s = .ok r ∧ Stepped (FirstR R) (FirstD D) k (r.1, ⟨r.2, limit⟩) (L.filter (early limit))
  | 0, _, _, _, _, _, h => by omega
  | fuel + 1, L, c, s, hR, ho, hf => by
    obtain ⟨r, h1, h2⟩ := g.next hR ho
    unfold firstLoop
    rw [h1, Res.ok_bind]
    cases L with
    | nil => rw [h2.1]; exact ⟨_, rfl, rfl, h2.2⟩
    | cons x L =>
      rw [h2.1, if_pos rfl, g.cur h2.2, Res.ok_bind]
      by_cases hx : x.stop ≤ limit
      · rw [if_pos hx, List.filter_cons_of_pos (by simpa [early] using hx)]
        exact ⟨_, rfl, rfl, L, h2.2, ho.tail, rfl⟩
      · rw [if_neg hx, List.filter_cons_of_neg (by simpa [early] using hx)]
        exact firstLoop_spec g limit k fuel L (some x) r.2 h2.2 ho.tail (by simp only [List.length_cons] at hf; omega)

theorem firstNext_spec (g : Good o R D) {e : FirstE σ} {k : Caps} {c : Option Sp} {L : List Sp} (h : R e.sub k c L)
    (ho : Ord (c.toList ++ L)) :
    ∃ r, firstNext o e = .ok r ∧ Stepped (FirstR R) (FirstD D) k r (L.filter (early e.limit)) := by
  obtain ⟨r, h1, h2⟩ := firstLoop_spec g e.limit k (o.left e.sub + 1) L c e.sub h ho (Nat.lt_succ_of_le (g.left h))
  refine ⟨(r.1, ⟨r.2, e.limit⟩), ?_, h2⟩
  unfold firstNext
  rw [h1, Res.ok_bind]

theorem good_first (g : Good o R D) : Good (firstOps o) (FirstR R) (FirstD D) where
  left := by
    rintro s k c L ⟨L', h1, _, rfl⟩
    exact Nat.le_trans (List.length_filter_le _ _) (g.left h1)
  cur := by
    rintro s k x L ⟨L', h1, _, rfl⟩
    exact g.cur h1
  early := by
    rintro s k L ⟨L', h1, _, rfl⟩ hk
    exact g.early h1 hk
  next := by
    rintro s k c L ⟨L', h1, h2, rfl⟩ _
    exact firstNext_spec g h1 h2
  skip := by
    rintro s k c L t ⟨L', h1, h2, rfl⟩ _ hk hb
    obtain ⟨r, h3, h4⟩ := g.skip h1 h2 hk hb
    show ∃ r, firstSkipTo o s t = .ok r ∧ _
    unfold firstSkipTo
    rw [h3, Res.ok_bind, dropWhile_filter h2.tail]
    have ho : Ord (L'.dropWhile (docLt t)) := h2.tail.sub (List.dropWhile_sublist _)
    cases hd : L'.dropWhile (docLt t) with
    | nil =>
      rw [hd] at h4; rw [h4.1]
      exact ⟨_, rfl, rfl, h4.2⟩
    | cons x M =>
      rw [hd] at h4 ho
      rw [h4.1, if_pos rfl, g.cur h4.2, Res.ok_bind]
      by_cases hx : x.stop ≤ s.limit
      · rw [if_pos hx, List.filter_cons_of_pos (by simpa [Span.early] using hx)]
        exact ⟨_, rfl, rfl, M, h4.2, ho, rfl⟩
      · rw [if_neg hx, List.filter_cons_of_neg (by simpa [Span.early] using hx)]
        exact firstNext_spec (e := { s with sub := r.2 }) g h4.2 ho
  late := by
    intro s k h hk
    obtain ⟨h1, h2⟩ := g.late h hk
    refine ⟨h1, fun t => ?_⟩
    obtain ⟨s', h3, h4⟩ := h2 t
    refine ⟨{ s with sub := s' }, ?_, h4⟩
    show firstSkipTo o s t = _
    unfold firstSkipTo
    rw [h3]; rfl

/-! ### SpanNotEnum -/

instance (a b : Sp) : Decidable (Overlap a b) := by unfold Overlap; infer_instance

/-- `x` shares no position with a span of `E`. -/
def apart (E : List Sp) (x : Sp) : Bool := E.all fun y => !decide (Overlap x y)

/-- The enumerator of the excluded spans, with `E` not yet passed. -/
def ExcS (R : σ → Caps → Option Sp → List Sp → Prop) (D : σ → Caps → Prop) (x : NotE σ) (ke : Caps) (E : List Sp) : Prop :=
  Stepped R D ke (x.moreExc, x.exc) E

/-- What the parts of a `not` must be able to do. -/
structure NotCaps (k ki ke : Caps) : Prop where
  early : k.early = true → ki.early = true
  skips : k.skips = true → ki.skips = true ∧ ke.late = true
  exc : ke.skips = true
  late : k.late = false

structure NotS (R : σ → Caps → Option Sp → List Sp → Prop) (D : σ → Caps → Prop) (x : NotE σ) (ki ke : Caps) (c : Option Sp)
    (I E : List Sp) : Prop where
  more : x.moreInc = true
  inc : R x.inc ki c I
  incOrd : Ord (c.toList ++ I)
  exc : ExcS R D x ke E
  excOrd : Ord E

def NotR (R : σ → Caps → Option Sp → List Sp → Prop) (D : σ → Caps → Prop) (x : NotE σ) (k : Caps) (c : Option Sp) (L : List Sp) : Prop :=
  ∃ ki ke I E, NotCaps k ki ke ∧ NotS R D x ki ke c I E ∧ L = I.filter (apart E)

def NotD (_x : NotE σ) (k : Caps) : Prop := k.late = false

/-- Excluded spans that are before `i` do not matter to what follows. -/
theorem apart_drop {i : Sp} {p : Sp → Bool} (hp : ∀ e, p e = true → ∀ j, SpLe i j → ¬ Overlap j e) (j : Sp) (hj : SpLe i j) :
    ∀ E : List Sp, apart E j = apart (E.dropWhile p) j
  | [] => rfl
  | e :: E => by
    by_cases h : p e = true
    · rw [List.dropWhile_cons_of_pos h, ← apart_drop hp j hj E]
      simp [apart, hp e h j hj]
    · rw [List.dropWhile_cons_of_neg h]

theorem SpLe.refl (a : Sp) : SpLe a a := by simp [SpLe]

theorem before_no {i e : Sp} (h : before e i = true) (j : Sp) (hj : SpLe i j) : ¬ Overlap j e := by
  simp only [before, decide_eq_true_eq, SpLe, Overlap] at *
  omega

theorem docLt_no {i e : Sp} (h : docLt i.doc e = true) (j : Sp) (hj : SpLe i j) : ¬ Overlap j e := by
  simp only [docLt, decide_eq_true_eq, SpLe, Overlap] at *
  omega

theorem excLoop_spec (g : Good o R D) (i : Sp) (ke : Caps) : ∀ (fuel : Nat) (y : Sp) (E : List Sp) (s : σ),
    R s ke (some y) E → Ord (y :: E) → E.length < fuel →
    ∃ r, excLoop o i fuel s = .ok r ∧ Stepped R D ke r ((y :: E).dropWhile fun e => before e i)
  | 0, _, _, _, _, _, h => by omega
  | fuel + 1, y, E, s, hR, ho, hf => by
    unfold excLoop
    rw [g.cur hR, Res.ok_bind]
    by_cases hb : before y i = true
    · rw [if_pos hb, List.dropWhile_cons_of_pos (p := fun e => before e i) hb]
      obtain ⟨r, h1, h2⟩ := g.next hR ho
      rw [h1, Res.ok_bind]
      cases E with
      | nil => rw [h2.1]; exact ⟨_, rfl, rfl, h2.2⟩
      | cons z E =>
        rw [h2.1, if_pos rfl]
        exact excLoop_spec g i ke fuel z E r.2 h2.2 (ho.sub (List.sublist_cons_self _ _)) (by simp only [List.length_cons] at hf; omega)
    · rw [if_neg hb, List.dropWhile_cons_of_neg (p := fun e => before e i) hb]
      exact ⟨_, rfl, rfl, hR⟩

/-- `inc` is at `i`; the excluded spans are not before its document. -/
theorem excluded_spec (g : Good o R D) {x : NotE σ} {ke : Caps} {E : List Sp} (h : ExcS R D x ke E) (ho : Ord E) (i : Sp)
    (hi : i.start < i.stop) (hE : ∀ e, E.head? = some e → i.doc ≤ e.doc) :
    ∃ x' E', excluded o i x = .ok (apart E i, x') ∧ x'.inc = x.inc ∧ x'.moreInc = x.moreInc ∧ ExcS R D x' ke E' ∧ Ord E' ∧
      ∀ j, SpLe i j → apart E j = apart E' j := by
  unfold excluded
  cases E with
  | nil =>
    have h1 : x.moreExc = false := h.1
    rw [h1]
    exact ⟨x, [], rfl, rfl, rfl, h, ho, fun _ _ => rfl⟩
  | cons y E =>
    have h1 : x.moreExc = true := h.1
    have hR : R x.exc ke (some y) E := h.2
    rw [h1, if_pos rfl]
    obtain ⟨r, h2, h3⟩ := excLoop_spec g i ke (o.left x.exc + 1) y E x.exc hR ho (Nat.lt_succ_of_le (g.left hR))
    rw [h2, Res.ok_bind]
    have hdrop := apart_drop (i := i) (p := fun e => before e i) (fun e he => before_no he)
    have ho' : Ord ((y :: E).dropWhile fun e => before e i) := ho.sub (List.dropWhile_sublist _)
    refine ⟨{ x with exc := r.2, moreExc := r.1 }, (y :: E).dropWhile fun e => before e i, ?_, rfl, rfl, h3, ho', fun j hj => hdrop j hj _⟩
    rw [hdrop i (SpLe.refl i)]
    have hmem : ∀ e ∈ (y :: E).dropWhile fun e => before e i, e ∈ y :: E := fun e he => List.dropWhile_subset _ he
    have hhead : ∀ e, ((y :: E).dropWhile fun e => before e i).head? = some e → before e i = false := by
      intro e he
      have := List.head?_dropWhile_not (fun e => before e i) (y :: E)
      rw [he] at this; simpa using this
    revert h3 ho' hmem hhead
    cases hd : (y :: E).dropWhile (fun e => before e i) with
    | nil => intro h3 _ _ _; rw [h3.1]; rfl
    | cons e E' =>
      intro h3 ho' hmem hhead
      rw [h3.1, if_pos rfl, g.cur h3.2, Res.ok_bind]
      congr 2
      have hb := hhead e rfl
      have hle : i.doc ≤ e.doc := by
        have h4 := hE y rfl
        have h5 : e = y ∨ SpLe y e := by
          rcases List.mem_cons.1 (hmem e (List.mem_cons_self ..)) with h | h
          · exact .inl h
          · exact .inr ((List.pairwise_cons.1 ho.1).1 e h)
        rcases h5 with h5 | h5
        · rw [h5]; exact h4
        · simp only [SpLe] at h5; omega
      simp only [before, decide_eq_false_iff_not] at hb
      rw [Bool.eq_iff_iff]
      simp only [decide_eq_true_eq, apart, List.all_cons, Bool.and_eq_true, Bool.not_eq_true', decide_eq_false_iff_not, List.all_eq_true]
      constructor
      · intro h
        refine ⟨by simp only [Overlap]; omega, fun z hz => ?_⟩
        have := (List.pairwise_cons.1 ho'.1).1 z hz
        simp only [SpLe, Overlap] at *
        omega
      · rintro ⟨h, _⟩
        simp only [Overlap] at h
        omega

/-- The excluded spans before the document of `i` are passed. -/
theorem skipExc_spec (g : Good o R D) {x : NotE σ} {ke : Caps} {y : Sp} {E : List Sp} (h : ExcS R D x ke (y :: E)) (ho : Ord (y :: E))
    (hk : ke.skips = true) (i : Sp) :
    ∃ x', (if i.doc > y.doc then o.skipTo x.exc i.doc >>= fun r => .ok { x with exc := r.2, moreExc := r.1 } else .ok x) = .ok x' ∧
      x'.inc = x.inc ∧ x'.moreInc = x.moreInc ∧ ExcS R D x' ke ((y :: E).dropWhile (docLt i.doc)) := by
  by_cases hd : i.doc > y.doc
  · rw [if_pos hd]
    obtain ⟨r, h1, h2⟩ := g.skip (t := i.doc) h.2 ho hk hd
    rw [h1]
    refine ⟨_, rfl, rfl, rfl, ?_⟩
    rw [List.dropWhile_cons_of_pos (by simpa [docLt] using hd)]
    exact h2
  · rw [if_neg hd, List.dropWhile_cons_of_neg (by simpa [docLt] using hd)]
    exact ⟨x, rfl, rfl, rfl, h⟩

theorem head_dropWhile_doc (t : Int) (E : List Sp) : ∀ e, (E.dropWhile (docLt t)).head? = some e → t ≤ e.doc := by
  intro e he
  have := List.head?_dropWhile_not (docLt t) E
  rw [he] at this
  simpa [docLt] using this

theorem notLoop_spec (g : Good o R D) {k ki ke : Caps} (hk : NotCaps k ki ke) : ∀ (fuel : Nat) (i : Sp) (I E : List Sp) (x : NotE σ),
    NotS R D x ki ke (some i) I E → I.length < fuel →
    ∃ r, notLoop o fuel x = .ok r ∧ Stepped (NotR R D) NotD k r ((i :: I).filter (apart E))
  | 0, _, _, _, _, _, h => by omega
  | fuel + 1, i, I, E, x, hs, hf => by
    unfold notLoop
    have hhit : ∀ (x' : NotE σ) (E' : List Sp), x'.inc = x.inc → x'.moreInc = x.moreInc → ExcS R D x' ke E' → Ord E' →
        (∀ j, SpLe i j → apart E j = apart E' j) → NotS R D x' ki ke (some i) I E' ∧ I.filter (apart E) = I.filter (apart E') := by
      intro x' E' h1 h2 h3 h4 h5
      refine ⟨⟨by rw [h2]; exact hs.more, by rw [h1]; exact hs.inc, hs.incOrd, h3, h4⟩, ?_⟩
      refine List.filter_congr fun j hj => h5 j ?_
      exact (List.pairwise_cons.1 hs.incOrd.1).1 j hj
    cases E with
    | nil =>
      have h1 : x.moreExc = false := hs.exc.1
      rw [h1, List.filter_cons_of_pos (by rfl)]
      exact ⟨_, rfl, rfl, ki, ke, I, [], hk, hs, rfl⟩
    | cons y E =>
      have h1 : x.moreExc = true := hs.exc.1
      rw [h1, if_pos rfl, g.cur hs.inc, Res.ok_bind, g.cur hs.exc.2, Res.ok_bind]
      obtain ⟨x1, h2, h3, h4, h5⟩ := skipExc_spec g hs.exc hs.excOrd hk.exc i
      rw [h2, Res.ok_bind]
      have hi := (hs.incOrd.2 i (List.mem_cons_self ..)).2.2.2.2
      obtain ⟨x2, E2, h6, h7, h8, h9, h10, h11⟩ := excluded_spec g h5 (hs.excOrd.sub (List.dropWhile_sublist _)) i hi (head_dropWhile_doc _ _)
      rw [h6, Res.ok_bind]
      have hap : ∀ j, SpLe i j → apart (y :: E) j = apart ((y :: E).dropWhile (docLt i.doc)) j := fun j hj =>
        apart_drop (fun e he => docLt_no he) j hj _
      obtain ⟨h12, h13⟩ := hhit x2 E2 (h7.trans h3) (h8.trans h4) h9 h10 fun j hj => (hap j hj).trans (h11 j hj)
      rw [← hap i (SpLe.refl i)]
      by_cases ha : apart (y :: E) i = true
      · rw [if_pos ha, List.filter_cons_of_pos ha]
        exact ⟨_, rfl, rfl, ki, ke, I, E2, hk, h12, h13⟩
      · rw [if_neg ha, List.filter_cons_of_neg ha, h13]
        obtain ⟨r, h14, h15⟩ := g.next h12.inc h12.incOrd
        dsimp only
        rw [h14, Res.ok_bind]
        cases I with
        | nil =>
          rw [h15.1]
          exact ⟨_, rfl, rfl, hk.late⟩
        | cons z I =>
          rw [h15.1]
          refine notLoop_spec g hk fuel z I E2 _ ⟨rfl, h15.2, h12.incOrd.tail, h12.exc, h12.excOrd⟩ ?_
          simp only [List.length_cons] at hf; omega

theorem notNext_spec (g : Good o R D) {k ki ke : Caps} (hk : NotCaps k ki ke) {x : NotE σ} {c : Option Sp} {I E : List Sp}
    (hs : NotS R D x ki ke c I E) : ∃ r, notNext o x = .ok r ∧ Stepped (NotR R D) NotD k r (I.filter (apart E)) := by
  unfold notNext
  rw [hs.more, if_pos rfl]
  obtain ⟨r, h1, h2⟩ := g.next hs.inc hs.incOrd
  rw [h1, Res.ok_bind]
  cases I with
  | nil => dsimp only; rw [h2.1]; exact ⟨_, rfl, rfl, hk.late⟩
  | cons i I =>
    dsimp only
    rw [h2.1, if_pos rfl]
    exact notLoop_spec g hk _ i I E _ ⟨rfl, h2.2, hs.incOrd.tail, hs.exc, hs.excOrd⟩ (Nat.lt_succ_of_le (g.left h2.2))

theorem good_not (g : Good o R D) : Good (notOps o) (NotR R D) NotD where
  left := by
    rintro s k c L ⟨ki, ke, I, E, hk, hs, rfl⟩
    exact Nat.le_trans (List.length_filter_le _ _) (g.left hs.inc)
  cur := by
    rintro s k x L ⟨ki, ke, I, E, hk, hs, rfl⟩
    exact g.cur hs.inc
  early := by
    rintro s k L ⟨ki, ke, I, E, hk, hs, rfl⟩ h
    exact g.early hs.inc (hk.early h)
  next := by
    rintro s k c L ⟨ki, ke, I, E, hk, hs, rfl⟩ _
    exact notNext_spec g hk hs
  skip := by
    rintro s k c L t ⟨ki, ke, I, E, hk, hs, rfl⟩ _ hsk hb
    show ∃ r, notSkipTo o s t = .ok r ∧ _
    obtain ⟨r, h1, h2⟩ := g.skip hs.inc hs.incOrd (hk.skips hsk).1 hb
    unfold notSkipTo notSkipInc
    rw [hs.more, if_pos rfl, h1, Res.ok_bind, Res.ok_bind, dropWhile_filter hs.incOrd.tail]
    have ho : Ord (I.dropWhile (docLt t)) := hs.incOrd.tail.sub (List.dropWhile_sublist _)
    cases hd : I.dropWhile (docLt t) with
    | nil =>
      rw [hd] at h2; dsimp only; rw [h2.1]
      exact ⟨_, rfl, rfl, hk.late⟩
    | cons i I' =>
      rw [hd] at h2 ho
      dsimp only
      rw [h2.1, if_pos rfl]
      have hs1 : NotS R D { s with inc := r.2, moreInc := true } ki ke (some i) I' E := ⟨rfl, h2.2, ho, hs.exc, hs.excOrd⟩
      generalize ({ s with inc := r.2, moreInc := true } : NotE σ) = x at hs1
      have hx : ∃ x', notSkipExc o x = .ok x' ∧ x'.inc = x.inc ∧ x'.moreInc = x.moreInc ∧ ExcS R D x' ke (E.dropWhile (docLt i.doc)) := by
        unfold notSkipExc
        rw [if_pos hs1.more, g.cur hs1.inc, Res.ok_bind]
        cases E with
        | nil =>
          obtain ⟨⟨e, h3⟩, h4⟩ := g.late hs1.exc.2 (hk.skips hsk).2
          rw [h3, Res.ok_bind]
          by_cases hde : i.doc > e.doc
          · rw [if_pos hde]
            obtain ⟨s', h5, h6⟩ := h4 i.doc
            rw [h5]
            exact ⟨_, rfl, rfl, rfl, rfl, h6⟩
          · rw [if_neg hde]
            exact ⟨_, rfl, rfl, rfl, hs1.exc⟩
        | cons y E =>
          rw [g.cur hs1.exc.2, Res.ok_bind]
          exact skipExc_spec g hs1.exc hs1.excOrd hk.exc i
      obtain ⟨x1, h3, h4, h5, h6⟩ := hx
      rw [h3, Res.ok_bind]
      have ho1 : Ord (E.dropWhile (docLt i.doc)) := hs1.excOrd.sub (List.dropWhile_sublist _)
      have hap : ∀ j, SpLe i j → apart E j = apart (E.dropWhile (docLt i.doc)) j := fun j hj =>
        apart_drop (fun e he => docLt_no he) j hj _
      have hap' : (i :: I').filter (apart E) = (i :: I').filter (apart (E.dropWhile (docLt i.doc))) := by
        refine List.filter_congr fun j hj => hap j ?_
        rcases List.mem_cons.1 hj with rfl | hj
        · exact SpLe.refl _
        · exact (List.pairwise_cons.1 hs1.incOrd.1).1 j hj
      rw [hap']
      have hs2 : NotS R D x1 ki ke (some i) I' (E.dropWhile (docLt i.doc)) :=
        ⟨h5.trans hs1.more, by rw [h4]; exact hs1.inc, hs1.incOrd, h6, ho1⟩
      have hhd := head_dropWhile_doc i.doc E
      revert hs2 hhd
      generalize E.dropWhile (docLt i.doc) = E1
      intro hs2 hhd
      cases E1 with
      | nil =>
        have h7 : x1.moreExc = false := hs2.exc.1
        rw [h7, List.filter_cons_of_pos (by rfl)]
        exact ⟨_, rfl, rfl, ki, ke, I', [], hk, hs2, rfl⟩
      | cons y E1 =>
        have h7 : x1.moreExc = true := hs2.exc.1
        rw [h7, if_pos rfl, g.cur hs2.inc, Res.ok_bind]
        have hi := (hs2.incOrd.2 i (List.mem_cons_self ..)).2.2.2.2
        obtain ⟨x2, E2, h8, h9, h10, h11, h12, h13⟩ := excluded_spec g hs2.exc hs2.excOrd i hi hhd
        rw [h8, Res.ok_bind]
        have hs3 : NotS R D x2 ki ke (some i) I' E2 := ⟨h10.trans hs2.more, by rw [h9]; exact hs2.inc, hs2.incOrd, h11, h12⟩
        have h14 : I'.filter (apart (y :: E1)) = I'.filter (apart E2) :=
          List.filter_congr fun j hj => h13 j ((List.pairwise_cons.1 hs2.incOrd.1).1 j hj)
        by_cases ha : apart (y :: E1) i = true
        · rw [if_pos ha, List.filter_cons_of_pos ha]
          exact ⟨_, rfl, rfl, ki, ke, I', E2, hk, hs3, h14⟩
        · rw [if_neg ha, List.filter_cons_of_neg ha, h14]
          exact notNext_spec g hk hs3
  late := by
    intro s k h hk
    rw [h] at hk; cases hk

/-- A new enumerator. -/
theorem notNew_spec (g : Good o R D) {k ki ke : Caps} (hk : NotCaps k ki ke) {a b : σ} {I E : List Sp} (ha : R a ki none I) (hb : R b ke none E)
    (hoI : Ord I) (hoE : Ord E) : ∃ x, notNew o a b = .ok x ∧ NotR R D x k none (I.filter (apart E)) := by
  obtain ⟨r, h1, h2⟩ := g.next hb hoE
  unfold notNew
  rw [h1]
  exact ⟨_, rfl, ki, ke, I, E, hk, ⟨rfl, ha, hoI, h2, hoE⟩, rfl⟩

end Ferret.Span
