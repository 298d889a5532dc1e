import Verif.Model.Phrase
import Verif.Spec.Phrase
import Verif.Lemmas.ScorerCon

/-! Phrase scorers: the contract of an enumerator, and the exact phrase frequency. -/

namespace Ferret.Phrase

open Ferret.Post (Posting)
open Ferret.Scorer (rotL rotL_head rotL_prev rotL_set_first rotL_set_prev rotL_mem)

variable {ε F S : Type}

/-- An enumerator in a state `Ok` acts as the cursor `view`. -/
structure Lawful (o : TdeOps ε) (Ok : ε → Prop) (view : ε → Tde) : Prop where
  next : ∀ {e}, Ok e → ((view e).rest = [] → ∃ e', o.next e = .ok (false, e')) ∧
    ∀ p l, (view e).rest = p :: l → ∃ e', o.next e = .ok (true, e') ∧ Ok e' ∧ view e' = ⟨p.doc, p.freq, p.occ, l⟩ ∧ o.left e' < o.left e
  skip : ∀ {e} n, Ok e → (((view e).rest.dropWhile fun p => decide ((p.doc : Int) < n)) = [] → ∃ e', o.skipTo e n = .ok (false, e')) ∧
    ∀ p l, ((view e).rest.dropWhile fun p => decide ((p.doc : Int) < n)) = p :: l →
      ∃ e', o.skipTo e n = .ok (true, e') ∧ Ok e' ∧ view e' = ⟨p.doc, p.freq, p.occ, l⟩ ∧ o.left e' < o.left e
  doc : ∀ {e}, Ok e → o.doc e = (view e).doc
  freq : ∀ {e}, Ok e → o.freq e = (view e).freq
  pos : ∀ {e x l}, Ok e → (view e).left = x :: l → ∃ e', o.nextPosition e = .ok (x, e') ∧ Ok e' ∧ view e' = { view e with left := l } ∧ o.left e' = o.left e

theorem lawful_tde : Lawful tdeOps (fun _ => True) id where
  next := by
    intro e _
    refine ⟨fun h => ⟨_, by show Res.ok (tdeNext e) = _; rw [tdeNext]; simp only [id] at h; rw [h]⟩, fun p l h => ?_⟩
    simp only [id] at h
    refine ⟨_, by show Res.ok (tdeNext e) = _; rw [tdeNext, h], trivial, rfl, ?_⟩
    simp [tdeOps, h]
  skip := by
    intro e n _
    refine ⟨fun h => ⟨_, by show Res.ok (tdeSkipTo e n) = _; rw [tdeSkipTo, tdeNext]; simp only [id] at h; rw [h]⟩, fun p l h => ?_⟩
    simp only [id] at h
    refine ⟨_, by show Res.ok (tdeSkipTo e n) = _; rw [tdeSkipTo, tdeNext]; simp only []; rw [h], trivial, rfl, ?_⟩
    have := (List.dropWhile_sublist (p := fun p : Posting => decide ((p.doc : Int) < n)) (l := e.rest)).length_le
    rw [h] at this
    simp only [tdeOps, List.length_cons] at this ⊢
    omega
  doc := fun _ => rfl
  freq := fun _ => rfl
  pos := by
    intro e x l _ h
    simp only [id] at h
    refine ⟨{ e with left := l }, ?_, trivial, rfl, rfl⟩
    show Res.ok (tdeNextPosition e) = _
    rw [tdeNextPosition, h]

/-! ### Phrase positions with their document lists -/

/-- A phrase position and the whole list of its documents. -/
structure Ent (ε : Type) where
  pp : PhPos ε
  full : List Posting

section
variable (o : TdeOps ε) (Ok : ε → Prop) (view : ε → Tde)

/-- The enumerator is at the document `p`; `left` are its positions not yet read. -/
structure At (e : Ent ε) (st : ε) (p : Posting) (left : List Int) : Prop where
  tpe : e.pp.tpe = some st
  ok : Ok st
  full : ∃ pre, e.full = pre ++ p :: (view st).rest
  doc : e.pp.doc = p.doc
  vdoc : (view st).doc = p.doc
  vfreq : (view st).freq = p.freq
  left : (view st).left = left

end

variable {o : TdeOps ε} {Ok : ε → Prop} {view : ε → Tde}

/-- What stays the same while the positions of a document are read. -/
def Same (o : TdeOps ε) (Ok : ε → Prop) (view : ε → Tde) (e e' : Ent ε) : Prop :=
  e'.full = e.full ∧ e'.pp.offset = e.pp.offset ∧ ∀ st p l, At Ok view e st p l → ∃ st' l', At Ok view e' st' p l' ∧ o.left st' = o.left st

theorem Same.refl (e : Ent ε) : Same o Ok view e e := ⟨rfl, rfl, fun st _ l h => ⟨st, l, h, rfl⟩⟩

theorem Same.trans {a b c : Ent ε} (h : Same o Ok view a b) (k : Same o Ok view b c) : Same o Ok view a c := by
  refine ⟨k.1.trans h.1, k.2.1.trans h.2.1, fun st p l hx => ?_⟩
  obtain ⟨st1, l1, h1, h2⟩ := h.2.2 st p l hx
  obtain ⟨st2, l2, h3, h4⟩ := k.2.2 st1 p l1 h1
  exact ⟨st2, l2, h3, h4.trans h2⟩

/-- Entry by entry the same. -/
def SameAll (o : TdeOps ε) (Ok : ε → Prop) (view : ε → Tde) (E E' : List (Ent ε)) : Prop :=
  E'.length = E.length ∧ ∀ (i : Nat) a b, E[i]? = some a → E'[i]? = some b → Same o Ok view a b

theorem SameAll.refl (E : List (Ent ε)) : SameAll o Ok view E E :=
  ⟨rfl, fun i a b h k => by rw [h] at k; cases k; exact .refl _⟩

theorem SameAll.trans {A B C : List (Ent ε)} (h : SameAll o Ok view A B) (k : SameAll o Ok view B C) : SameAll o Ok view A C := by
  refine ⟨k.1.trans h.1, fun i a c ha hc => ?_⟩
  have hi : i < B.length := by rw [h.1]; exact (List.getElem?_eq_some_iff.1 ha).1
  have hb := List.getElem?_eq_getElem hi
  exact (h.2 i a _ ha hb).trans (k.2 i _ c hb hc)

theorem SameAll.set {E : List (Ent ε)} {i : Nat} {e e' : Ent ε} (he : E[i]? = some e) (h : Same o Ok view e e') : SameAll o Ok view E (E.set i e') := by
  refine ⟨List.length_set, fun j a b ha hb => ?_⟩
  by_cases hij : i = j
  · subst hij
    rw [he] at ha; cases ha
    rw [List.getElem?_set_self (List.getElem?_eq_some_iff.1 he).1] at hb; cases hb
    exact h
  · rw [List.getElem?_set_ne hij] at hb
    rw [ha] at hb; cases hb; exact .refl _

theorem SameAll.cons {e e' : Ent ε} {E E' : List (Ent ε)} (h : Same o Ok view e e') (k : SameAll o Ok view E E') : SameAll o Ok view (e :: E) (e' :: E') := by
  refine ⟨by simp [k.1], fun i a b ha hb => ?_⟩
  cases i with
  | zero => simp at ha hb; subst ha hb; exact h
  | succ i => exact k.2 i a b (by simpa using ha) (by simpa using hb)

theorem SameAll.mem {E E' : List (Ent ε)} (h : SameAll o Ok view E E') {b : Ent ε} (hb : b ∈ E') : ∃ a ∈ E, Same o Ok view a b := by
  obtain ⟨i, hi⟩ := List.getElem?_of_mem hb
  have hl : i < E.length := by rw [← h.1]; exact (List.getElem?_eq_some_iff.1 hi).1
  exact ⟨E[i], List.getElem_mem hl, h.2 i _ b (List.getElem?_eq_getElem hl) hi⟩

theorem SameAll.mem' {E E' : List (Ent ε)} (h : SameAll o Ok view E E') {a : Ent ε} (ha : a ∈ E) : ∃ b ∈ E', Same o Ok view a b := by
  obtain ⟨i, hi⟩ := List.getElem?_of_mem ha
  have hl : i < E'.length := by rw [h.1]; exact (List.getElem?_eq_some_iff.1 hi).1
  exact ⟨E'[i], List.getElem_mem hl, h.2 i a _ hi (List.getElem?_eq_getElem hl)⟩

/-! ### Positions -/

/-- The phrase position has been put on a position of the document: `l` are those still to come. -/
def Pos (o : TdeOps ε) (Ok : ε → Prop) (view : ε → Tde) (e : Ent ε) (l : List Int) : Prop :=
  ∃ st p, At Ok view e st p (l.map (· + e.pp.offset)) ∧ e.pp.count = l.length

theorem map_sub_add (l : List Int) (k : Int) : (l.map (· + k)).map (· - k) = l := by
  rw [List.map_map]
  conv => rhs; rw [← List.map_id l]
  apply List.map_congr_left
  intro x _
  simp only [Function.comp_apply, id_eq]
  omega

theorem map_add_sub (l : List Int) (k : Int) : (l.map (· - k)).map (· + k) = l := by
  rw [List.map_map]
  conv => rhs; rw [← List.map_id l]
  apply List.map_congr_left
  intro x _
  simp only [Function.comp_apply, id_eq]
  omega

theorem nextPosition_cons (hl : Lawful o Ok view) {e : Ent ε} {x : Int} {l : List Int} (h : Pos o Ok view e (x :: l)) :
    ∃ e', ppNextPosition o e.pp = .ok (true, e'.pp) ∧ e'.pp.position = x ∧ Pos o Ok view e' l ∧ Same o Ok view e e' := by
  obtain ⟨st, p, ha, hc⟩ := h
  simp only [List.length_cons] at hc
  obtain ⟨st', h1, h2, h3, h4⟩ := hl.pos ha.ok ha.left
  have key : ∀ pos cnt, At Ok view (⟨{ e.pp with count := cnt, tpe := some st', position := pos }, e.full⟩ : Ent ε) st' p (l.map (· + e.pp.offset)) := by
    intro pos cnt
    exact ⟨rfl, h2, by rw [h3]; exact ha.full, ha.doc, by rw [h3]; exact ha.vdoc, by rw [h3]; exact ha.vfreq, by rw [h3]⟩
  refine ⟨⟨{ e.pp with count := e.pp.count - 1, tpe := some st', position := x }, e.full⟩, ?_, rfl, ⟨st', p, key _ _, by simp only []; omega⟩, rfl, rfl, ?_⟩
  · rw [ppNextPosition, if_pos (by omega), ha.tpe]
    show (o.nextPosition st >>= _) = _
    rw [h1, Res.ok_bind]
    simp only [show x + e.pp.offset - e.pp.offset = x by omega]
  · intro st0 p0 l0 h0
    have he : st0 = st := by have := h0.tpe; rw [ha.tpe] at this; cases this; rfl
    subst he
    refine ⟨st', (view st').left, ⟨rfl, h2, by rw [h3]; exact h0.full, h0.doc, by rw [h3]; exact h0.vdoc, by rw [h3]; exact h0.vfreq, rfl⟩, h4⟩

theorem nextPosition_nil {e : Ent ε} (h : Pos o Ok view e []) :
    ∃ e', ppNextPosition o e.pp = .ok (false, e'.pp) ∧ Same o Ok view e e' := by
  obtain ⟨st, p, ha, hc⟩ := h
  simp only [List.length_nil] at hc
  refine ⟨⟨{ e.pp with count := e.pp.count - 1 }, e.full⟩, ?_, rfl, rfl, ?_⟩
  · rw [ppNextPosition, if_neg (by omega)]
  · intro st0 p0 l0 h0
    exact ⟨st0, l0, ⟨h0.tpe, h0.ok, h0.full, h0.doc, h0.vdoc, h0.vfreq, h0.left⟩, rfl⟩

theorem firstPosition_spec (hl : Lawful o Ok view) {e : Ent ε} {st : ε} {p : Posting} (ha : At Ok view e st p p.occ) (hf : p.freq = p.occ.length)
    {x : Int} {l : List Int} (hx : p.occ = x :: l) :
    ∃ e', ppFirstPosition o e.pp = .ok (true, e'.pp) ∧ e'.pp.position = x - e.pp.offset ∧ Pos o Ok view e' (l.map (· - e.pp.offset)) ∧ Same o Ok view e e' := by
  let e1 : Ent ε := ⟨{ e.pp with count := o.freq st }, e.full⟩
  have hsame : Same o Ok view e e1 := ⟨rfl, rfl, fun st0 p0 l0 h0 => ⟨st0, l0, ⟨h0.tpe, h0.ok, h0.full, h0.doc, h0.vdoc, h0.vfreq, h0.left⟩, rfl⟩⟩
  have hp : Pos o Ok view e1 ((x - e.pp.offset) :: l.map (· - e.pp.offset)) := by
    refine ⟨st, p, ⟨ha.tpe, ha.ok, ha.full, ha.doc, ha.vdoc, ha.vfreq, ?_⟩, ?_⟩
    · rw [ha.left, hx]
      show _ = (x - e.pp.offset + e.pp.offset) :: (l.map (· - e.pp.offset)).map (· + e.pp.offset)
      rw [map_add_sub, show x - e.pp.offset + e.pp.offset = x by omega]
    · show o.freq st = _
      rw [hl.freq ha.ok, ha.vfreq, hf, hx]
      simp
  obtain ⟨e', h1, h2, h3, h4⟩ := nextPosition_cons hl hp
  refine ⟨e', ?_, h2, h3, hsame.trans h4⟩
  rw [ppFirstPosition, ha.tpe]
  show ppNextPosition o _ = _
  rw [← h1, ← ha.tpe]

/-- The positions still to come. -/
def todo (view : ε → Tde) (e : Ent ε) : List Int :=
  match e.pp.tpe with
  | some st => (view st).left.map (· - e.pp.offset)
  | none => []

/-- The current position and those still to come. -/
def rem (view : ε → Tde) (e : Ent ε) : List Int := e.pp.position :: todo view e

theorem Pos.todo {e : Ent ε} {l : List Int} (h : Pos o Ok view e l) : todo view e = l := by
  obtain ⟨st, p, ha, _⟩ := h
  rw [Phrase.todo, ha.tpe]
  simp only []
  rw [ha.left, map_sub_add]

theorem Pos.count {e : Ent ε} {l : List Int} (h : Pos o Ok view e l) : e.pp.count = l.length := by
  obtain ⟨_, _, _, h⟩ := h; exact h

theorem advance_spec (hl : Lawful o Ok view) (t : Int) : ∀ (l : List Int) (fuel : Nat) (e : Ent ε), l.length < fuel → Pos o Ok view e l →
    ((l.dropWhile (fun x => decide (x < t)) = [] → ∃ e', advance o t fuel e.pp = .ok (false, e'.pp) ∧ Same o Ok view e e') ∧
     ∀ x l', l.dropWhile (fun x => decide (x < t)) = x :: l' → ∃ e', advance o t fuel e.pp = .ok (true, e'.pp) ∧ e'.pp.position = x ∧ Pos o Ok view e' l' ∧ Same o Ok view e e') := by
  intro l
  induction l with
  | nil =>
    intro fuel e hf h
    obtain ⟨n, rfl⟩ : ∃ n, fuel = n + 1 := ⟨fuel - 1, by omega⟩
    refine ⟨fun _ => ?_, fun x l' hx => by simp at hx⟩
    obtain ⟨e', h1, h2⟩ := nextPosition_nil h
    refine ⟨e', ?_, h2⟩
    rw [advance, h1, Res.ok_bind]; rfl
  | cons y l ih =>
    intro fuel e hf h
    obtain ⟨n, rfl⟩ : ∃ n, fuel = n + 1 := ⟨fuel - 1, by omega⟩
    simp only [List.length_cons] at hf
    obtain ⟨e', h1, h2, h3, h4⟩ := nextPosition_cons hl h
    have hu : advance o t (n + 1) e.pp = if y < t then advance o t n e'.pp else .ok (true, e'.pp) := by
      rw [advance, h1, Res.ok_bind]
      show (if e'.pp.position < t then _ else _) = _
      rw [h2]
    by_cases hy : y < t
    · rw [hu, if_pos hy, List.dropWhile_cons_of_pos (by simpa using hy)]
      have := ih n e' (by omega) h3
      refine ⟨fun hd => ?_, fun x l' hd => ?_⟩
      · obtain ⟨e2, k1, k2⟩ := this.1 hd
        exact ⟨e2, k1, h4.trans k2⟩
      · obtain ⟨e2, k1, k2, k3, k4⟩ := this.2 x l' hd
        exact ⟨e2, k1, k2, k3, h4.trans k4⟩
    · rw [hu, if_neg hy, List.dropWhile_cons_of_neg (by simpa using hy)]
      refine ⟨fun hd => by simp at hd, fun x l' hd => ?_⟩
      injection hd with hd1 hd2
      subst hd1 hd2
      exact ⟨e', rfl, h2, h3, h4⟩

/-- Every phrase position has the (shifted) position `q` before it. -/
def Common (view : ε → Tde) (E : List (Ent ε)) (q : Int) : Prop := ∀ e ∈ E, q ∈ rem view e

/-- All phrase positions are on a position, with ascending ones to come. -/
def PosAll (o : TdeOps ε) (Ok : ε → Prop) (view : ε → Tde) (E : List (Ent ε)) : Prop :=
  ∀ e ∈ E, Pos o Ok view e (todo view e) ∧ (rem view e).Pairwise (· ≤ ·)

/-- Positions still to come. -/
def toCome (view : ε → Tde) (E : List (Ent ε)) : Nat := (E.map fun e => (todo view e).length).sum

theorem sum_set {α : Type} (f : α → Nat) {E : List α} {k : Nat} {e e' : α} (h : E[k]? = some e) :
    ((E.set k e').map f).sum + f e = (E.map f).sum + f e' := by
  induction E generalizing k with
  | nil => simp at h
  | cons x xs ih =>
    cases k with
    | zero => simp at h; subst h; simp; omega
    | succ k =>
      simp only [List.getElem?_cons_succ] at h
      have := ih h
      simp only [List.set_cons_succ, List.map_cons, List.sum_cons]
      omega

theorem mem_rem_drop {e : Ent ε} {t q : Int} (hp : e.pp.position < t) (h : q ∈ rem view e) (hq : t ≤ q) :
    q ∈ (todo view e).dropWhile fun x => decide (x < t) := by
  rcases List.mem_cons.1 h with h | h
  · omega
  · rw [← List.takeWhile_append_dropWhile (p := fun x => decide (x < t)) (l := todo view e)] at h
    rcases List.mem_append.1 h with h | h
    · have := List.all_eq_true.1 (List.all_takeWhile (p := fun x => decide (x < t)) (l := todo view e)) q h
      simp at this; omega
    · exact h

theorem common_set {E : List (Ent ε)} {i : Nat} {e e' : Ent ε} (he : E[i]? = some e) {q : Int} (h1 : q ∈ rem view e → q ∈ rem view e')
    (h : Common view E q) : Common view (E.set i e') q := by
  intro a ha
  rcases List.mem_or_eq_of_mem_set ha with h2 | rfl
  · exact h a h2
  · exact h1 (h e (List.mem_of_getElem? he))

theorem common_unset {E : List (Ent ε)} {i : Nat} {e e' : Ent ε} (he : E[i]? = some e) {q : Int} (h1 : q ∈ rem view e' → q ∈ rem view e)
    (h : Common view (E.set i e') q) : Common view E q := by
  intro a ha
  obtain ⟨j, hj⟩ := List.getElem?_of_mem ha
  by_cases hij : i = j
  · subst hij
    rw [he] at hj; cases hj
    exact h1 (h e' (List.mem_of_getElem? (List.getElem?_set_self (List.getElem?_eq_some_iff.1 he).1)))
  · exact h a (List.mem_of_getElem? (i := j) (by rw [List.getElem?_set_ne hij]; exact hj))

theorem posAll_set {E : List (Ent ε)} {i : Nat} {e' : Ent ε} (h : PosAll o Ok view E) (h1 : Pos o Ok view e' (todo view e')) (h2 : (rem view e').Pairwise (· ≤ ·)) :
    PosAll o Ok view (E.set i e') := by
  intro a ha
  rcases List.mem_or_eq_of_mem_set ha with h3 | rfl
  · exact h a h3
  · exact ⟨h1, h2⟩

theorem map_pp_set (E : List (Ent ε)) (i : Nat) (e' : Ent ε) : (E.map (·.pp)).set i e'.pp = (E.set i e').map (·.pp) := by
  rw [List.map_set]

theorem ephLoop_spec (hl : Lawful o Ok view) : ∀ (fuel : Nat) (E : List (Ent ε)) (idx freq : Nat), toCome view E + 1 ≤ fuel → idx < E.length →
    PosAll o Ok view E → (rotL idx E).Pairwise (fun a b => a.pp.position ≤ b.pp.position) →
    ∃ k E' idx', ephLoop o fuel (E.map (·.pp)) idx freq = .ok (freq + k, E'.map (·.pp), idx') ∧ SameAll o Ok view E E' ∧ idx' < E.length ∧
      (0 < k ↔ ∃ q, Common view E q) ∧
      ((∀ e ∈ E, (rem view e).Pairwise (· < ·)) → ∃ L : List Int, L.Nodup ∧ L.length = k ∧ ∀ q, q ∈ L ↔ Common view E q) := by
  intro fuel
  induction fuel with
  | zero => intro E idx freq h; omega
  | succ n ih =>
    intro E idx freq hf hidx hpos hsort
    have hpl : prevNum idx E.length < E.length := Nat.mod_lt _ (by omega)
    have hfst : E[idx]? = (rotL idx E).head? := rotL_head hidx
    have hlst : E[prevNum idx E.length]? = (rotL idx E).getLast? := rotL_prev hidx
    obtain ⟨first, hfirst⟩ : ∃ x, E[idx]? = some x := ⟨_, List.getElem?_eq_getElem hidx⟩
    obtain ⟨last, hlast⟩ : ∃ x, E[prevNum idx E.length]? = some x := ⟨_, List.getElem?_eq_getElem hpl⟩
    rw [hfirst] at hfst; rw [hlast] at hlst
    have hmemF := List.mem_of_getElem? hfirst
    have hmemL := List.mem_of_getElem? hlast
    -- everything is between the first and the last
    have hle : ∀ e ∈ E, e.pp.position ≤ last.pp.position := by
      intro e he
      obtain ⟨ys, hys⟩ := List.getLast?_eq_some_iff.mp hlst.symm
      have he' : e ∈ rotL idx E := rotL_mem.2 he
      rw [hys] at he' hsort
      rw [List.pairwise_append] at hsort
      rcases List.mem_append.mp he' with h1 | h1
      · exact hsort.2.2 e h1 last (by simp)
      · simp at h1; subst h1; exact Int.le_refl _
    have hge : ∀ e ∈ E, first.pp.position ≤ e.pp.position := by
      intro e he
      have he' : e ∈ rotL idx E := rotL_mem.2 he
      cases hr : rotL idx E with
      | nil => rw [hr] at hfst; cases hfst
      | cons a r =>
        rw [hr] at hfst he' hsort
        simp at hfst; subst hfst
        rcases List.mem_cons.mp he' with rfl | h1
        · exact Int.le_refl _
        · exact (List.pairwise_cons.mp hsort).1 e h1
    have hun : ephLoop o (n + 1) (E.map (·.pp)) idx freq =
        (if first.pp.position < last.pp.position then
          advance o last.pp.position (first.pp.count.toNat + 1) first.pp >>= fun r =>
            if r.1 then ephLoop o n ((E.map (·.pp)).set idx r.2) (nextNum idx E.length) freq
            else .ok (freq, (E.map (·.pp)).set idx r.2, idx)
        else
          ppNextPosition o last.pp >>= fun r =>
            if r.1 then ephLoop o n ((E.map (·.pp)).set (prevNum idx E.length) r.2) idx (freq + 1)
            else .ok (freq + 1, (E.map (·.pp)).set (prevNum idx E.length) r.2, idx)) := by
      rw [ephLoop]
      simp only [List.length_map, List.getElem?_map, hfirst, hlast, Option.map_some, Res.ofOption, Res.ok_bind]
    rw [hun]
    have hpF := hpos first hmemF
    have hpL := hpos last hmemL
    by_cases hlt : first.pp.position < last.pp.position
    · rw [if_pos hlt]
      have hq : ∀ q, Common view E q → last.pp.position ≤ q := by
        intro q hc
        rcases List.mem_cons.1 (hc last hmemL) with h1 | h1
        · omega
        · exact (List.pairwise_cons.1 hpL.2).1 q h1
      have hadv := advance_spec hl last.pp.position (todo view first) (first.pp.count.toNat + 1) first (by rw [hpF.1.count]; simp) hpF.1
      cases hd : (todo view first).dropWhile (fun x => decide (x < last.pp.position)) with
      | nil =>
        obtain ⟨e', h1, h2⟩ := hadv.1 hd
        rw [h1, Res.ok_bind]
        have hno : ∀ q, ¬ Common view E q := by
          intro q hc
          have := mem_rem_drop hlt (hc first hmemF) (hq q hc)
          rw [hd] at this; cases this
        refine ⟨0, E.set idx e', idx, ?_, .set hfirst h2, hidx, ⟨fun h => by omega, fun ⟨q, h⟩ => absurd h (hno q)⟩,
          fun _ => ⟨[], List.nodup_nil, rfl, fun q => ⟨(fun h => nomatch h), fun h => absurd h (hno q)⟩⟩⟩
        simp only [Bool.false_eq_true, if_false, map_pp_set, Nat.add_zero]
      | cons x l' =>
        obtain ⟨e', h1, h2, h3, h4⟩ := hadv.2 x l' hd
        rw [h1, Res.ok_bind]
        simp only [if_true, map_pp_set]
        have hx : last.pp.position ≤ x := by
          have := List.head?_dropWhile_not (fun x => decide (x < last.pp.position)) (todo view first)
          rw [hd] at this; simpa using this
        have htodo := h3.todo
        have hsub : (x :: l').Sublist (todo view first) := by rw [← hd]; exact List.dropWhile_sublist _
        have hrem : rem view e' = x :: l' := by rw [rem, h2, htodo]
        have hset : ∀ q, Common view E q ↔ Common view (E.set idx e') q := by
          intro q
          constructor
          · intro hc
            refine common_set hfirst (fun hm => ?_) hc
            rw [hrem, ← hd]
            exact mem_rem_drop hlt hm (hq q hc)
          · exact common_unset hfirst (fun hm => by rw [hrem] at hm; exact List.mem_cons_of_mem _ (hsub.mem hm))
        have hpw : (rem view e').Pairwise (· ≤ ·) := by rw [hrem]; exact ((List.pairwise_cons.1 hpF.2).2).sublist hsub
        have hfuel : toCome view (E.set idx e') + 1 ≤ n := by
          have hs := sum_set (fun e => (todo view e).length) (e' := e') hfirst
          have := hsub.length_le
          rw [htodo] at hs
          simp only [List.length_cons] at this
          unfold toCome at hf ⊢
          omega
        obtain ⟨k, E', idx', k1, k2, k3, k4, k5⟩ := ih (E.set idx e') (nextNum idx E.length) freq hfuel
          (by rw [List.length_set]; exact Nat.mod_lt _ (by omega)) (posAll_set hpos (by rw [htodo]; exact h3) hpw) (by
            rw [nextNum, rotL_set_first hidx]
            rw [List.pairwise_append]
            refine ⟨hsort.sublist (List.tail_sublist _), List.pairwise_singleton _ _, fun a ha b hb => ?_⟩
            simp at hb; subst hb
            rw [h2]
            exact Int.le_trans (hle a (rotL_mem.1 (List.mem_of_mem_tail ha))) hx)
        refine ⟨k, E', idx', k1, (SameAll.set hfirst h4).trans k2, by rw [List.length_set] at k3; exact k3, ?_, fun hstrict => ?_⟩
        · rw [k4]
          exact ⟨fun ⟨q, h⟩ => ⟨q, (hset q).2 h⟩, fun ⟨q, h⟩ => ⟨q, (hset q).1 h⟩⟩
        · obtain ⟨L, l1, l2, l3⟩ := k5 (by
            intro a ha
            rcases List.mem_or_eq_of_mem_set ha with h6 | rfl
            · exact hstrict a h6
            · rw [hrem]; exact ((List.pairwise_cons.1 (hstrict first hmemF)).2).sublist hsub)
          exact ⟨L, l1, l2, fun q => (l3 q).trans (hset q).symm⟩
    · rw [if_neg hlt]
      have heq : ∀ e ∈ E, e.pp.position = last.pp.position := by
        intro e he
        have := hle e he; have := hge e he; have := hle first hmemF
        omega
      have hcom : Common view E last.pp.position := by
        intro e he
        rw [rem, heq e he]; exact List.mem_cons_self ..
      cases ht : todo view last with
      | nil =>
        obtain ⟨e', h1, h2⟩ := nextPosition_nil (by rw [← ht]; exact hpL.1)
        rw [h1, Res.ok_bind]
        refine ⟨1, E.set (prevNum idx E.length) e', idx, ?_, .set hlast h2, hidx, ⟨fun _ => ⟨_, hcom⟩, fun _ => by omega⟩,
          fun _ => ⟨[last.pp.position], by simp, rfl, fun q => ⟨fun h => ?_, fun h => ?_⟩⟩⟩
        · simp only [Bool.false_eq_true, if_false, map_pp_set]
        · simp at h; subst h; exact hcom
        · have := h last hmemL
          rw [rem, ht] at this
          simpa using this
      | cons x l' =>
        obtain ⟨e', h1, h2, h3, h4⟩ := nextPosition_cons hl (e := last) (x := x) (l := l') (by rw [← ht]; exact hpL.1)
        rw [h1, Res.ok_bind]
        simp only [if_true, map_pp_set]
        have htodo := h3.todo
        have hrem : rem view e' = x :: l' := by rw [rem, h2, htodo]
        have hremL : rem view last = last.pp.position :: x :: l' := by rw [rem, ht]
        have hpw := hpL.2
        rw [hremL] at hpw
        have hfuel : toCome view (E.set (prevNum idx E.length) e') + 1 ≤ n := by
          have hs := sum_set (fun e => (todo view e).length) (e' := e') hlast
          rw [htodo, ht] at hs
          simp only [List.length_cons] at hs
          unfold toCome at hf ⊢
          omega
        have hx : last.pp.position ≤ x := (List.pairwise_cons.1 hpw).1 x (List.mem_cons_self ..)
        obtain ⟨k, E', idx', k1, k2, k3, k4, k5⟩ := ih (E.set (prevNum idx E.length) e') idx (freq + 1) hfuel
          (by rw [List.length_set]; exact hidx) (posAll_set hpos (by rw [htodo]; exact h3) (by rw [hrem]; exact (List.pairwise_cons.1 hpw).2)) (by
            rw [prevNum, rotL_set_prev hidx]
            rw [List.pairwise_append]
            refine ⟨hsort.sublist (List.dropLast_sublist _), List.pairwise_singleton _ _, fun a ha b hb => ?_⟩
            simp at hb; subst hb
            rw [h2, heq a (rotL_mem.1 ((List.dropLast_sublist _).mem ha))]
            exact hx)
        refine ⟨k + 1, E', idx', by rw [k1]; congr 2; omega, (SameAll.set hlast h4).trans k2, by rw [List.length_set] at k3; exact k3,
          ⟨fun _ => ⟨_, hcom⟩, fun _ => by omega⟩, fun hstrict => ?_⟩
        have hsl := hstrict last hmemL
        rw [hremL] at hsl
        obtain ⟨L, l1, l2, l3⟩ := k5 (by
            intro a ha
            rcases List.mem_or_eq_of_mem_set ha with h6 | rfl
            · exact hstrict a h6
            · rw [hrem]; exact (List.pairwise_cons.1 hsl).2)
        have hsubs : ∀ q, Common view (E.set (prevNum idx E.length) e') q → q ∈ x :: l' := by
          intro q hc
          have := hc e' (List.mem_of_getElem? (List.getElem?_set_self hpl))
          rwa [hrem] at this
        refine ⟨last.pp.position :: L, ?_, by simp [l2], fun q => ?_⟩
        · rw [List.nodup_cons]
          refine ⟨fun hm => ?_, l1⟩
          have := (List.pairwise_cons.1 hsl).1 _ (hsubs _ ((l3 _).1 hm))
          omega
        · constructor
          · intro hm
            rcases List.mem_cons.1 hm with rfl | hm
            · exact hcom
            · exact common_unset hlast (fun h6 => by rw [hrem] at h6; rw [hremL]; exact List.mem_cons_of_mem _ h6) ((l3 q).1 hm)
          · intro hc
            by_cases hq : q = last.pp.position
            · subst hq; exact List.mem_cons_self ..
            · refine List.mem_cons_of_mem _ ((l3 q).2 (common_set hlast (fun h6 => ?_) hc))
              rw [hremL] at h6
              rw [hrem]
              rcases List.mem_cons.1 h6 with h6 | h6
              · exact absurd h6 hq
              · exact h6

end Ferret.Phrase
