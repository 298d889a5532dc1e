import Verif.Lemmas.Phrase

/-! Phrase scorers: finding the documents. -/

namespace Ferret.Phrase

open Ferret.Post (Posting)
open Ferret.Scorer (rotL rotL_head rotL_prev rotL_set_first rotL_set_prev rotL_mem perm_map_lift)

variable {ε F S : Type} {o : TdeOps ε} {Ok : ε → Prop} {view : ε → Tde}

/-- `qsort`: the result is a permutation, in order. Nothing is said of equal elements. -/
def Sorts (qs : QSort ε) : Prop :=
  ∀ (le : PhPos ε → PhPos ε → Bool) l, (∀ a b, le a b = true ∨ le b a = true) → (∀ a b c, le a b = true → le b c = true → le a c = true) →
    (qs le l).Perm l ∧ (qs le l).Pairwise fun a b => le a b = true

theorem sort_lift {qs : QSort ε} (hq : Sorts qs) {le : PhPos ε → PhPos ε → Bool} (h1 : ∀ a b, le a b = true ∨ le b a = true)
    (h2 : ∀ a b c, le a b = true → le b c = true → le a c = true) (E : List (Ent ε)) :
    ∃ E' : List (Ent ε), E'.Perm E ∧ qs le (E.map (·.pp)) = E'.map (·.pp) ∧ E'.Pairwise fun a b => le a.pp b.pp = true := by
  obtain ⟨hp, hs⟩ := hq le (E.map (·.pp)) h1 h2
  obtain ⟨E', k1, k2⟩ := perm_map_lift (·.pp) hp E rfl
  refine ⟨E', k1, k2.symm, ?_⟩
  rw [← k2, List.pairwise_map] at hs
  exact hs

theorem ppPosLe_total (a b : PhPos ε) : ppPosLe a b = true ∨ ppPosLe b a = true := by
  simp only [ppPosLe, decide_eq_true_eq]; omega

theorem ppPosLe_trans (a b c : PhPos ε) : ppPosLe a b = true → ppPosLe b c = true → ppPosLe a c = true := by
  simp only [ppPosLe, decide_eq_true_eq]; omega

theorem ppLe_total (a b : PhPos ε) : ppLe a b = true ∨ ppLe b a = true := by
  simp only [ppLe, decide_eq_true_eq]; omega

theorem ppLe_trans (a b c : PhPos ε) : ppLe a b = true → ppLe b c = true → ppLe a c = true := by
  simp only [ppLe, decide_eq_true_eq]; omega

/-- The offset of a phrase position and its documents. -/
abbrev Key := Int × List Posting

def key (e : Ent ε) : Key := (e.pp.offset, e.full)

/-- The positions of a document in a list. -/
def occAt (ps : List Posting) (d : Int) : List Int :=
  match ps.find? fun p => decide ((p.doc : Int) = d) with
  | some p => p.occ
  | none => []

theorem find_doc {ps : List Posting} (h : ps.Pairwise fun a b => a.doc < b.doc) {p : Posting} (hp : p ∈ ps) :
    ps.find? (fun q => decide ((q.doc : Int) = p.doc)) = some p := by
  induction ps with
  | nil => cases hp
  | cons a l ih =>
    obtain ⟨h1, h2⟩ := List.pairwise_cons.1 h
    rcases List.mem_cons.1 hp with rfl | hp
    · simp
    · rw [List.find?_cons_of_neg (by have := h1 p hp; simp; omega)]
      exact ih h2 hp

theorem occAt_mem {ps : List Posting} (h : ps.Pairwise fun a b => a.doc < b.doc) {p : Posting} (hp : p ∈ ps) : occAt ps p.doc = p.occ := by
  rw [occAt, find_doc h hp]

/-- The phrase position is at document `d`. -/
def AtDoc (Ok : ε → Prop) (view : ε → Tde) (d : Int) (e : Ent ε) : Prop := ∃ st p l, At Ok view e st p l ∧ (p.doc : Int) = d

/-- … and none of its positions has been read. -/
def Fresh (Ok : ε → Prop) (view : ε → Tde) (d : Int) (e : Ent ε) : Prop := ∃ st p, At Ok view e st p p.occ ∧ (p.doc : Int) = d

theorem Fresh.at {d : Int} {e : Ent ε} (h : Fresh Ok view d e) : AtDoc Ok view d e := by
  obtain ⟨st, p, h1, h2⟩ := h; exact ⟨st, p, _, h1, h2⟩

theorem AtDoc.doc {d : Int} {e : Ent ε} (h : AtDoc Ok view d e) : e.pp.doc = d := by
  obtain ⟨st, p, l, h1, h2⟩ := h; rw [h1.doc, h2]

/-- Offsets and positions in document `d`. -/
def ats (d : Int) (ks : List Key) : List (Int × List Int) := ks.map fun k => (k.1, occAt k.2 d)

/-- The contract of `phrase_freq`: called when every phrase position has just come to the document, it gives
a value that stands for the positions in the document, and leaves the phrase positions there. -/
structure FreqOK (o : TdeOps ε) (Ok : ε → Prop) (view : ε → Tde) (pf : Freq ε F) (Pre : List Key → Prop) (Val : List (Int × List Int) → F → Prop) : Prop where
  perm : ∀ {a b f}, a.Perm b → Val a f → Val b f
  prePerm : ∀ {a b}, a.Perm b → Pre a → Pre b
  spec : ∀ {E : List (Ent ε)} {idx d}, E ≠ [] → idx < E.length → (∀ e ∈ E, DocsOK e.full) → Pre (E.map key) → (∀ e ∈ E, Fresh Ok view d e) →
    ∃ f E' idx', pf (E.map (·.pp)) idx = .ok (f, E'.map (·.pp), idx') ∧ idx' < E'.length ∧ Val (ats d (E.map key)) f ∧
      (∃ E1, E1.Perm E ∧ SameAll o Ok view E1 E')

theorem SameAll.keys {E E' : List (Ent ε)} (h : SameAll o Ok view E E') : E'.map key = E.map key := by
  apply List.ext_getElem?
  intro i
  rw [List.getElem?_map, List.getElem?_map]
  cases ha : E[i]? with
  | none =>
    rw [List.getElem?_eq_none_iff] at ha
    rw [List.getElem?_eq_none_iff.2 (by rw [h.1]; exact ha)]
  | some a =>
    have hi : i < E'.length := by rw [h.1]; exact (List.getElem?_eq_some_iff.1 ha).1
    have hb := List.getElem?_eq_getElem hi
    rw [hb]
    have := h.2 i a _ ha hb
    simp only [Option.map_some, key, this.1, this.2.1]

theorem SameAll.atDoc {E E' : List (Ent ε)} (h : SameAll o Ok view E E') {d : Int} (hd : ∀ e ∈ E, AtDoc Ok view d e) : ∀ e ∈ E', AtDoc Ok view d e := by
  intro e he
  obtain ⟨a, ha, hs⟩ := h.mem he
  obtain ⟨st, p, l, h1, h2⟩ := hd a ha
  obtain ⟨st', l', h3, _⟩ := hs.2.2 st p l h1
  exact ⟨st', p, l', h3, h2⟩

/-- Documents left at one phrase position. -/
def leftOf (o : TdeOps ε) (p : PhPos ε) : Nat := match p.tpe with | some e => o.left e | none => 0

theorem docsLeft_eq (E : List (Ent ε)) : docsLeft o (E.map (·.pp)) = (E.map fun e => leftOf o e.pp).sum := by
  unfold docsLeft; rw [List.map_map]; rfl

theorem SameAll.left {E E' : List (Ent ε)} (h : SameAll o Ok view E E') {d : Int} (hd : ∀ e ∈ E, AtDoc Ok view d e) :
    docsLeft o (E'.map (·.pp)) = docsLeft o (E.map (·.pp)) := by
  rw [docsLeft_eq, docsLeft_eq]
  congr 1
  apply List.ext_getElem?
  intro i
  rw [List.getElem?_map, List.getElem?_map]
  cases ha : E[i]? with
  | none =>
    rw [List.getElem?_eq_none_iff] at ha
    rw [List.getElem?_eq_none_iff.2 (by rw [h.1]; exact ha)]
  | some a =>
    have hi : i < E'.length := by rw [h.1]; exact (List.getElem?_eq_some_iff.1 ha).1
    have hb := List.getElem?_eq_getElem hi
    rw [hb]
    obtain ⟨st, p, l, h1, h2⟩ := hd a (List.mem_of_getElem? ha)
    obtain ⟨st', l', h3, h4⟩ := (h.2 i a _ ha hb).2.2 st p l h1
    simp only [Option.map_some, leftOf, h1.tpe, h3.tpe, h4]

theorem docsLeft_perm {E E' : List (Ent ε)} (h : E'.Perm E) : docsLeft o (E'.map (·.pp)) = docsLeft o (E.map (·.pp)) := by
  rw [docsLeft_eq, docsLeft_eq]
  exact ((h.map _).sum_nat)

/-! ### The exact phrase frequency -/

theorem firstPositions_spec (hl : Lawful o Ok view) (d : Int) : ∀ E : List (Ent ε), (∀ e ∈ E, DocsOK e.full) → (∀ e ∈ E, Fresh Ok view d e) →
    ∃ E', firstPositions o (E.map (·.pp)) = .ok (E'.map (·.pp)) ∧ SameAll o Ok view E E' ∧ PosAll o Ok view E' ∧
      E'.map (fun e => (e.pp.offset, rem view e)) = E.map fun e => (e.pp.offset, (occAt e.full d).map (· - e.pp.offset)) := by
  intro E
  induction E with
  | nil => intro _ _; exact ⟨[], rfl, .refl _, (fun _ h => nomatch h), rfl⟩
  | cons e E ih =>
    intro hd hf
    obtain ⟨E', k1, k2, k3, k4⟩ := ih (fun a ha => hd a (List.mem_cons_of_mem _ ha)) (fun a ha => hf a (List.mem_cons_of_mem _ ha))
    obtain ⟨st, p, ha, hpd⟩ := hf e (List.mem_cons_self ..)
    have hdo := hd e (List.mem_cons_self ..)
    have hmem : p ∈ e.full := by obtain ⟨pre, h⟩ := ha.full; rw [h]; simp
    have hfr := hdo.freq p hmem
    have hoc := occAt_mem hdo.asc hmem
    cases hx : p.occ with
    | nil => rw [hx, List.length_nil] at hfr; omega
    | cons x l =>
      obtain ⟨e', m1, m2, m3, m4⟩ := firstPosition_spec hl ha hfr.1 hx
      have hrem : rem view e' = (occAt e.full d).map (· - e.pp.offset) := by
        rw [rem, m2, m3.todo, ← hpd, hoc, hx]; rfl
      refine ⟨e' :: E', ?_, .cons m4 k2, ?_, ?_⟩
      · simp only [List.map_cons, firstPositions, m1, Res.ok_bind, k1]
      · intro a ha'
        rcases List.mem_cons.1 ha' with rfl | ha'
        · refine ⟨by rw [m3.todo]; exact m3, ?_⟩
          rw [hrem, ← hpd, hoc, List.pairwise_map]
          exact (hdo.occ p hmem).imp (fun h => by omega)
        · exact k3 a ha'
      · rw [List.map_cons, List.map_cons, k4, hrem, m4.2.1]

/-- Value of the exact phrase frequency. -/
def ExactVal (l : List (Int × List Int)) (f : Nat) : Prop :=
  (0 < f ↔ ∃ q, ∀ x ∈ l, q + x.1 ∈ x.2) ∧
  ((∀ x ∈ l, x.2.Pairwise (· < ·)) → ∃ L : List Int, L.Nodup ∧ L.length = f ∧ ∀ q, q ∈ L ↔ ∀ x ∈ l, q + x.1 ∈ x.2)

theorem freqOK_exact (hl : Lawful o Ok view) {qs : QSort ε} (hq : Sorts qs) : FreqOK o Ok view (ephFreq o qs) (fun _ => True) ExactVal where
  perm := by
    intro a b f hp h
    have he : ∀ q : Int, (∀ x ∈ a, q + x.1 ∈ x.2) ↔ ∀ x ∈ b, q + x.1 ∈ x.2 := fun q =>
      ⟨fun h x hx => h x (hp.mem_iff.2 hx), fun h x hx => h x (hp.mem_iff.1 hx)⟩
    refine ⟨h.1.trans ⟨fun ⟨q, k⟩ => ⟨q, (he q).1 k⟩, fun ⟨q, k⟩ => ⟨q, (he q).2 k⟩⟩, fun hs => ?_⟩
    obtain ⟨L, l1, l2, l3⟩ := h.2 (fun x hx => hs x (hp.mem_iff.1 hx))
    exact ⟨L, l1, l2, fun q => (l3 q).trans (he q)⟩
  prePerm := fun _ _ => trivial
  spec := by
    intro E idx d hne _ hd _ hf
    obtain ⟨E1, k1, k2, k3, k4⟩ := firstPositions_spec hl d E hd hf
    obtain ⟨E2, p1, p2, p3⟩ := sort_lift hq ppPosLe_total ppPosLe_trans E1
    have hlen : E2.length = E.length := by rw [p1.length_eq, k2.1]
    have hpos : 0 < E.length := List.length_pos_iff.2 hne
    have hpa : PosAll o Ok view E2 := fun e he => k3 e (p1.mem_iff.1 he)
    have hleft : posLeft (E1.map (·.pp)) = toCome view E2 := by
      have h1 : posLeft (E1.map (·.pp)) = toCome view E1 := by
        unfold posLeft toCome
        rw [List.map_map]
        congr 1
        apply List.map_congr_left
        intro e he
        simp only [Function.comp_apply, (k3 e he).1.count]
        simp
      rw [h1]
      exact ((p1.map _).sum_nat).symm
    obtain ⟨k, E', idx', m1, m2, m3, m4, m5⟩ := ephLoop_spec hl (posLeft (E1.map (·.pp)) + 1) E2 0 0 (by omega) (by omega) hpa (by
      simp only [rotL, List.drop_zero, List.take_zero, List.append_nil]
      exact p3.imp (fun h => by simpa [ppPosLe] using h))
    have hcom : ∀ q, Common view E2 q ↔ ∀ x ∈ ats d (E.map key), q + x.1 ∈ x.2 := by
      intro q
      have h1 : Common view E2 q ↔ ∀ y ∈ E1.map (fun e => (e.pp.offset, rem view e)), q ∈ y.2 := by
        simp only [List.mem_map, forall_exists_index, and_imp, forall_apply_eq_imp_iff₂]
        exact ⟨fun h e he => h e (p1.mem_iff.2 he), fun h e he => h e (p1.mem_iff.1 he)⟩
      rw [h1, k4]
      unfold ats
      simp only [List.map_map, List.mem_map, forall_exists_index, and_imp, forall_apply_eq_imp_iff₂, Function.comp_apply, key]
      constructor
      · intro h e he
        obtain ⟨y, y1, y2⟩ := h e he
        rw [← y2, show y - e.pp.offset + e.pp.offset = y by omega]; exact y1
      · intro h e he
        exact ⟨_, h e he, by omega⟩
    have hsame : SameAll o Ok view E2 E' := m2
    -- E2 is a permutation of E1, which is entry by entry the same as E
    have hlift : ∃ E0, E0.Perm E ∧ SameAll o Ok view E0 E2 := by
      have hz : (E.zip E1).map (·.2) = E1 := by
        rw [List.map_snd_zip]; rw [k2.1]; exact Nat.le_refl _
      obtain ⟨Z, z1, z2⟩ := perm_map_lift (·.2) p1 (E.zip E1) hz
      refine ⟨Z.map (·.1), ?_, ?_, ?_⟩
      · have := z1.map (·.1)
        rwa [List.map_fst_zip (by rw [k2.1]; exact Nat.le_refl _)] at this
      · rw [← z2]; simp
      · intro i a b ha hb
        rw [List.getElem?_map, Option.map_eq_some_iff] at ha
        obtain ⟨z, hz1, hz2⟩ := ha
        rw [← z2, List.getElem?_map, hz1] at hb
        simp at hb
        have hzm : z ∈ E.zip E1 := z1.mem_iff.1 (List.mem_of_getElem? hz1)
        obtain ⟨j, hj⟩ := List.getElem?_of_mem hzm
        rw [List.getElem?_zip_eq_some] at hj
        subst hz2 hb
        exact k2.2 j _ _ hj.1 hj.2
    obtain ⟨E0, q1, q2⟩ := hlift
    refine ⟨k, E', idx', ?_, by rw [m2.1]; exact m3, ⟨m4.trans ⟨fun ⟨q, h⟩ => ⟨q, (hcom q).1 h⟩, fun ⟨q, h⟩ => ⟨q, (hcom q).2 h⟩⟩, fun hs => ?_⟩, E0, q1, q2.trans m2⟩
    · rw [ephFreq, k1, Res.ok_bind, p2, m1, Nat.zero_add]
    · obtain ⟨L, l1, l2, l3⟩ := m5 (by
        intro e he
        have h1 : (e.pp.offset, rem view e) ∈ E1.map (fun e => (e.pp.offset, rem view e)) := List.mem_map_of_mem (f := fun e : Ent ε => (e.pp.offset, rem view e)) (p1.mem_iff.1 he)
        rw [k4, List.mem_map] at h1
        obtain ⟨a, ha, h2⟩ := h1
        have h3 := congrArg Prod.snd h2
        simp only [] at h3
        rw [← h3, List.pairwise_map]
        refine (hs (a.pp.offset, occAt a.full d) ?_).imp (fun h => by omega)
        unfold ats
        rw [List.map_map, List.mem_map]
        exact ⟨a, ha, rfl⟩)
      exact ⟨L, l1, l2, fun q => (l3 q).trans (hcom q)⟩

end Ferret.Phrase
