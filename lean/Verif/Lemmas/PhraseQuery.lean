import Verif.Lemmas.PhraseScorer
import Verif.Lemmas.PhraseMulti
import Verif.Lemmas.Walk

/-! The scorer of a phrase query. -/

namespace Ferret.Phrase

open Ferret.Post (Posting)
open Ferret.Spec (PhrasePart TermAt PartAt PhraseAt)
open Ferret.Scorer (Arith View Good)

variable {T F S : Type}

/-- The documents of a phrase position. -/
def partDocs (ix : T → List Posting) (x : PhrasePart T) : List Posting :=
  match x.terms with
  | [t] => ix t
  | ts => union (ts.map ix)

theorem partEnum_spec {ix : T → List Posting} (hix : ∀ t, DocsOK (ix t)) (x : PhrasePart T) :
    ∃ e, partEnum ix x = .ok e ∧ anyOk e ∧ (anyView e).rest = partDocs ix x := by
  obtain ⟨ts, off⟩ := x
  obtain ⟨m, m1, m2, m3⟩ := mtdpeNew_spec (ls := ts.map ix) (by
    intro l hl
    obtain ⟨t, _, rfl⟩ := List.mem_map.1 hl
    exact hix t)
  match ts, m1, m3 with
  | [t], _, _ => exact ⟨_, rfl, trivial, rfl⟩
  | [], m1, m3 => exact ⟨.inr m, by simp only [partEnum]; rw [m1]; rfl, m2, m3⟩
  | a :: b :: l, m1, m3 => exact ⟨.inr m, by simp only [partEnum]; rw [m1]; rfl, m2, m3⟩

theorem partDocs_ok {ix : T → List Posting} (hix : ∀ t, DocsOK (ix t)) (x : PhrasePart T) : DocsOK (partDocs ix x) := by
  unfold partDocs
  split
  · exact hix _
  · exact docsOK_union

theorem mem_occAt {l : List Posting} (h : DocsOK l) {d p : Int} : p ∈ occAt l d ↔ ∃ x ∈ l, (x.doc : Int) = d ∧ p ∈ x.occ := by
  constructor
  · exact occAt_some
  · rintro ⟨x, hx, rfl, hp⟩
    rw [occAt_mem h.asc hx]; exact hp

theorem mem_occsIn {ix : T → List Posting} (hix : ∀ t, DocsOK (ix t)) {ts : List T} {d p : Int} : p ∈ occsIn (ts.map ix) d ↔ ∃ t ∈ ts, TermAt ix t d p := by
  unfold occsIn
  rw [List.mem_flatMap]
  constructor
  · rintro ⟨l, hl, hp⟩
    obtain ⟨t, ht, rfl⟩ := List.mem_map.1 hl
    exact ⟨t, ht, (mem_occAt (hix t)).1 hp⟩
  · rintro ⟨t, ht, hp⟩
    exact ⟨ix t, List.mem_map_of_mem ht, (mem_occAt (hix t)).2 hp⟩

theorem occAt_union {ls : List (List Posting)} {d : Int} (hd : 0 ≤ d) : occAt (union ls) d = sortInts (occsIn ls d) := by
  cases ho : occAt (union ls) d with
  | cons a b =>
    obtain ⟨p, hp, hpd, _⟩ := occAt_some (l := union ls) (d := d) (x := a) (by rw [ho]; exact List.mem_cons_self ..)
    rw [← ho, ← hpd, occAt_mem (union_asc ls) hp]
    have := (mem_union.1 hp).2
    exact congrArg (·.occ) this
  | nil =>
    apply Classical.byContradiction
    intro hne
    have h1 : occsIn ls d ≠ [] := by
      intro h; rw [h] at hne; exact hne rfl
    have hdn : ((d.toNat : Nat) : Int) = d := by omega
    have hm : (⟨d.toNat, (occsIn ls (d.toNat : Nat)).length, sortInts (occsIn ls (d.toNat : Nat))⟩ : Posting) ∈ union ls := by
      rw [mem_union]; exact ⟨by simp only [hdn]; exact h1, rfl⟩
    have h2 := occAt_mem (union_asc ls) hm
    simp only [hdn] at h2
    rw [ho] at h2
    exact hne h2

theorem neg_occAt {l : List Posting} {d : Int} (hd : d < 0) : occAt l d = [] := by
  cases ho : occAt l d with
  | nil => rfl
  | cons a b =>
    obtain ⟨p, hp, hpd, _⟩ := occAt_some (l := l) (d := d) (x := a) (by rw [ho]; exact List.mem_cons_self ..)
    omega

theorem mem_partDocs {ix : T → List Posting} (hix : ∀ t, DocsOK (ix t)) (x : PhrasePart T) {d p : Int} : p ∈ occAt (partDocs ix x) d ↔ PartAt ix x d p := by
  unfold PartAt
  by_cases hd : d < 0
  · rw [neg_occAt hd]
    constructor
    · exact fun h => nomatch h
    · rintro ⟨t, _, y, _, hy, _⟩; omega
  · unfold partDocs
    split
    · rename_i t ht
      rw [ht, mem_occAt (hix t)]
      constructor
      · intro h; exact ⟨t, List.mem_singleton_self _, h⟩
      · rintro ⟨s, hs, h⟩
        rw [List.mem_singleton] at hs; subst hs; exact h
    · rw [occAt_union (by omega), (sortInts_perm _).mem_iff, mem_occsIn hix]

theorem in_partDocs {ix : T → List Posting} (hix : ∀ t, DocsOK (ix t)) (x : PhrasePart T) {d : Int} :
    (∃ q ∈ partDocs ix x, (q.doc : Int) = d) ↔ ∃ p, PartAt ix x d p := by
  have hok := partDocs_ok hix x
  constructor
  · rintro ⟨q, hq, rfl⟩
    obtain ⟨p, hp⟩ := List.exists_mem_of_ne_nil _ (occAt_ne_nil hok hq)
    exact ⟨p, (mem_partDocs hix x).1 hp⟩
  · rintro ⟨p, hp⟩
    obtain ⟨q, h1, h2, _⟩ := (mem_occAt hok).1 ((mem_partDocs hix x).2 hp)
    exact ⟨q, h1, h2⟩

/-- The keys of the phrase positions. -/
def keysOf (ix : T → List Posting) (ph : List (PhrasePart T)) : List Key := ph.map fun x => (x.offset, partDocs ix x)

theorem partEnums_spec {ix : T → List Posting} (hix : ∀ t, DocsOK (ix t)) : ∀ ph : List (PhrasePart T),
    ∃ es, partEnums ix ph = .ok es ∧ ∃ E : List (Ent (Tde ⊕ Mtdpe)), es.map (fun e => PhPos.new e.1 e.2) = E.map (·.pp) ∧ E.map key = keysOf ix ph ∧
      ∀ e ∈ E, ∃ st, Passed anyOk anyView e st [] := by
  intro ph
  induction ph with
  | nil => exact ⟨[], rfl, [], rfl, rfl, (fun _ h => nomatch h)⟩
  | cons x ph ih =>
    obtain ⟨es, h1, E, h2, h3, h4⟩ := ih
    obtain ⟨e, e1, e2, e3⟩ := partEnum_spec hix x
    refine ⟨(e, x.offset) :: es, by rw [partEnums, e1, Res.ok_bind, h1, Res.ok_bind], ⟨PhPos.new e x.offset, partDocs ix x⟩ :: E, ?_, ?_, ?_⟩
    · rw [List.map_cons, List.map_cons, h2]
    · rw [List.map_cons, h3]; rfl
    · intro a ha
      rcases List.mem_cons.1 ha with rfl | ha
      · exact ⟨e, rfl, e2, e3.symm⟩
      · exact h4 a ha

/-- The scorer of a phrase query before its first call. -/
theorem phw_spec {P : Prop} {A : Arith S} {Pre : List Key → Prop} {Val : List (Int × List Int) → F → Prop} {zero : F → Bool} {ix : T → List Posting}
    (hix : ∀ t, DocsOK (ix t)) (tfw : F → S) (norm : Int → S) (q : PhQ T) (hq : q.parts ≠ []) {M : Int → Prop} {v : View S}
    (hv : IsPhrase P A Pre Val zero tfw norm (keysOf ix q.parts) M v) :
    ∃ s, phwScorer ix tfw norm q = .ok (some s) ∧ phR P A anyOk anyView Pre Val zero s v (-1) false := by
  obtain ⟨es, h1, E, h2, h3, h4⟩ := partEnums_spec hix q.parts
  refine ⟨PhSc.new tfw norm es, ?_, keysOf ix q.parts, M, E, hv, by rw [h3], h2, rfl, .inl ⟨rfl, rfl, h4⟩⟩
  unfold phwScorer
  have : q.parts.isEmpty = false := by cases h : q.parts with
    | nil => exact absurd h hq
    | cons a b => rfl
  rw [this, h1]
  rfl

end Ferret.Phrase
