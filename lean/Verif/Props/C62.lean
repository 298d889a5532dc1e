import Verif.Lemmas.InvertDoc
import Verif.Props.C19
import Verif.Props.C22

/-!
C62: an added document is found by exactly its terms. Fields are described and documents are added in any order;
then the writer flushes its posting lists, and a reader asks for the documents and positions of a term of a field, for
term vectors, or for norms.
-/

namespace Ferret.Props
open Ferret Ferret.Spec Ferret.Fis Ferret.Fields Ferret.Dict Ferret.Expand Ferret.Post Ferret.Inv

/-- Where the terms of a field are in each document: those of the tokens indexed of the field (see
`Spec.keptTokens`: within the limit, all of the analyzer's), or nowhere. -/
def termPlaces (cfg : Cfg) (fi : FI) (ds : List Doc) : List (List (Term × Int)) :=
  ds.map fun d => places ((docTokens cfg fi d).getD [])

/-- Documents that fit: each with distinct fields and data that fits; texts shorter than 255 bytes and without zero
bytes, positions that are `int`s and not below −1; if offsets are stored, positions that do not go back; no more
documents than are buffered, and fewer than 2^28 tokens in each field. -/
structure GoodHistory (Z : Zip) (cfg : Cfg) (T : FIS) (ds : List Doc) : Prop where
  docs : ∀ d ∈ ds, GoodDoc Z T d
  inc : ∀ d ∈ ds, ∀ f ∈ d, ∀ fi, getField T f.name = some fi → GoodInc cfg fi f
  texts : ∀ fi, getField T fi.name = some fi → isIndexed fi = true → ∀ ps ∈ termPlaces cfg fi ds, ∀ x ∈ ps,
    x.1.length < 255 ∧ 0 ∉ x.1 ∧ -1 ≤ x.2 ∧ x.2 < 2 ^ 31 - 1
  buffered : ds.length ≤ cfg.maxBuffered
  few : ds.length < 2 ^ 27
  tokens : ∀ fi, getField T fi.name = some fi → ((termPlaces cfg fi ds).map List.length).sum < 2 ^ 28
  fields : T.fields.length < 2 ^ 28

/-! ### What is flushed -/

theorem occurrencesFrom_spec : ∀ (ds : List (List (Term × Int))) (k : Nat) (t : Term),
    ((occurrencesFrom k ds t).Pairwise fun a b => a.1 < b.1) ∧ (occurrencesFrom k ds t).length ≤ ds.length ∧
    ∀ o ∈ occurrencesFrom k ds t, k ≤ o.1 ∧ o.1 < k + ds.length ∧ o.2 ≠ [] ∧ ∃ d ∈ ds, o.2 = positionsOf d t := by
  intro ds
  induction ds with
  | nil => intro k t; simp [occurrencesFrom]
  | cons d ds ih =>
    intro k t
    obtain ⟨h1, h2, h3⟩ := ih (k + 1) t
    simp only [occurrencesFrom]
    split
    · refine ⟨h1, by simp; omega, ?_⟩
      intro o ho
      obtain ⟨a, b, c, e, he, hf⟩ := h3 o ho
      exact ⟨by omega, by simp; omega, c, e, by simp [he], hf⟩
    · rename_i hne
      refine ⟨?_, by simp; omega, ?_⟩
      · rw [List.pairwise_cons]
        refine ⟨?_, h1⟩
        intro o ho
        have := (h3 o ho).1
        show k < o.1
        omega
      · intro o ho
        rcases List.mem_cons.1 ho with rfl | ho
        · exact ⟨Nat.le_refl _, by simp, hne, d, by simp, rfl⟩
        · obtain ⟨a, b, c, e, he, hf⟩ := h3 o ho
          exact ⟨by omega, by simp; omega, c, e, by simp [he], hf⟩

theorem expected_places (cfg : Cfg) (fi : FI) (ds : List Doc) (t : Term) :
    expected (ds.map (docTokens cfg fi)) t = (occurrences (termPlaces cfg fi ds) t).map fun o => ⟨o.1, o.2.length, o.2⟩ := by
  unfold expected termPlaces
  rw [List.map_map]
  rfl

theorem places_length : ∀ (tks : List Token) (p : Int), (placesFrom p tks).length = tks.length := by
  intro tks
  induction tks with
  | nil => intro p; rfl
  | cons tk tks ih => intro p; simp [placesFrom, ih]

theorem flushInput_mem {cfg : Cfg} {T : FIS} (hT : WF T) {ds : List Doc} {x : Inv} (h : IOK cfg T ds x) {e : Nat × Plists} (he : e ∈ flushInput T x) :
    ∃ fi f, getField T fi.name = some fi ∧ isIndexed fi = true ∧ e = (fi.number, sortPls f.plists) ∧ getInv x.fields fi.number = some f ∧
      FOK cfg fi (ds.map (docTokens cfg fi)) f := by
  unfold flushInput at he
  obtain ⟨fi, hm, h1⟩ := List.mem_filterMap.1 he
  split at h1
  · rename_i hix
    rw [Option.map_eq_some_iff] at h1
    obtain ⟨f, hf, e1⟩ := h1
    have hself : getField T fi.name = some fi := by
      unfold getField
      have hn := hT.names
      cases hfind : T.fields.find? (fun g => g.name == fi.name) with
      | none =>
        rw [List.find?_eq_none] at hfind
        exact absurd (by simp) (hfind fi hm)
      | some g =>
        have g1 := List.mem_of_find?_eq_some hfind
        have g2 := List.find?_some hfind
        simp only [beq_iff_eq] at g2
        obtain ⟨i, hi, ei⟩ := List.getElem_of_mem hm
        obtain ⟨j, hj, ej⟩ := List.getElem_of_mem g1
        have : i = j := by
          unfold List.Nodup at hn
          rw [List.pairwise_iff_getElem] at hn
          rcases Nat.lt_trichotomy i j with hlt | heq | hlt
          · exact (hn i j (by simpa using hi) (by simpa using hj) hlt (by simp [ei, ej, g2])).elim
          · exact heq
          · exact (hn j i (by simpa using hj) (by simpa using hi) hlt (by simp [ei, ej, g2])).elim
        subst this
        rw [← ei, ej]
    have := h.fields fi hself hix
    unfold inverterOf at this
    rw [hf] at this
    exact ⟨fi, f, hself, hix, e1.symm, hf, this⟩
  · cases h1

theorem _root_.Ferret.Inv.FOK.mem {cfg : Cfg} {fi : FI} {os : List (Option (List Token))} {f : FldInv} (h : FOK cfg fi os f) {y : Term × List Posting}
    (hy : y ∈ sortPls f.plists) : y.2 = expected os y.1 ∧ y.2 ≠ [] := by
  have h1 := find_key h.keys ((sortPls_perm f.plists).mem_iff.1 hy)
  rw [h.lists] at h1
  unfold optList at h1
  split at h1
  · cases h1
  · rename_i hne
    have e := Option.some.inj h1
    rw [← e]
    exact ⟨rfl, by simpa using hne⟩

theorem length_le_sum {α : Type} (g : α → Nat) : ∀ l : List α, (∀ x ∈ l, 1 ≤ g x) → l.length ≤ (l.map g).sum := by
  intro l
  induction l with
  | nil => intro _; simp
  | cons x xs ih =>
    intro h
    have h1 := h x (by simp)
    have h2 := ih (fun y hy => h y (by simp [hy]))
    simp only [List.length_cons, List.map_cons, List.sum_cons]
    omega

theorem sum_le_sum {α : Type} (g g' : α → Nat) : ∀ l : List α, (∀ x ∈ l, g x ≤ g' x) → (l.map g).sum ≤ (l.map g').sum := by
  intro l
  induction l with
  | nil => intro _; simp
  | cons x xs ih =>
    intro h
    have h1 := h x (by simp)
    have h2 := ih (fun y hy => h y (by simp [hy]))
    simp only [List.map_cons, List.sum_cons]
    omega

theorem sum_le_mul {α : Type} (g : α → Nat) (b : Nat) : ∀ l : List α, (∀ x ∈ l, g x ≤ b) → (l.map g).sum ≤ l.length * b := by
  intro l
  induction l with
  | nil => intro _; simp
  | cons x xs ih =>
    intro h
    have h1 := h x (by simp)
    have h2 := ih (fun y hy => h y (by simp [hy]))
    simp only [List.map_cons, List.sum_cons, List.length_cons, Nat.succ_mul]
    omega

theorem flushed_segment {Z : Zip} {cfg : Cfg} {T : FIS} (hT : WF T) {ds : List Doc} {x : Inv} (h : IOK cfg T ds x) (hg : GoodHistory Z cfg T ds)
    (ii si : Nat) (h1 : 0 < ii) (h2 : ii < 2 ^ 31) (h3 : si < 2 ^ 31) : Segment ii si (flushInput T x) := by
  have hlen : (flushInput T x).length ≤ T.fields.length := List.length_filterMap_le _ _
  have hposts : ∀ fi, getField T fi.name = some fi → isIndexed fi = true → ∀ t : Term, ∀ p ∈ expected (ds.map (docTokens cfg fi)) t,
      p.doc < ds.length ∧ p.freq = p.occ.length ∧ 0 < p.freq ∧ (∀ q ∈ p.occ, -1 ≤ q ∧ q < 2 ^ 31) ∧ t.length < 255 := by
    intro fi hf hix t p hp
    rw [expected_places] at hp
    obtain ⟨o, ho, rfl⟩ := List.mem_map.1 hp
    obtain ⟨a, b, c, d, hd, e⟩ := (occurrencesFrom_spec (termPlaces cfg fi ds) 0 t).2.2 o ho
    have htx := hg.texts fi hf hix d hd
    refine ⟨by simpa [termPlaces] using b, rfl, List.length_pos_iff.2 c, ?_, ?_⟩
    · intro q hq
      dsimp only at hq
      rw [e] at hq
      unfold positionsOf at hq
      obtain ⟨z, hz, rfl⟩ := List.mem_map.1 hq
      have := htx z (List.mem_filter.1 hz).1
      exact ⟨this.2.2.1, by omega⟩
    · obtain ⟨q, hq⟩ := List.exists_mem_of_ne_nil _ c
      rw [e] at hq
      unfold positionsOf at hq
      obtain ⟨z, hz, rfl⟩ := List.mem_map.1 hq
      have hz' := List.mem_filter.1 hz
      have := htx z hz'.1
      simp only [decide_eq_true_eq] at hz'
      rw [← hz'.2]
      exact this.1
  have htoks : ∀ fi, getField T fi.name = some fi → ∀ f, FOK cfg fi (ds.map (docTokens cfg fi)) f → occCount (sortPls f.plists) < 2 ^ 28 := by
    intro fi hf f hok
    rw [occCount_perm (sortPls_perm _), hok.count]
    have := hg.tokens fi hf
    unfold termPlaces at this
    rw [List.map_map] at this ⊢
    refine Nat.lt_of_le_of_lt (Nat.le_of_eq ?_) this
    congr 1
    apply List.map_congr_left
    intro d _
    simp [places, places_length]
  have hone : ∀ fi, getField T fi.name = some fi → isIndexed fi = true → ∀ f, FOK cfg fi (ds.map (docTokens cfg fi)) f → ∀ y ∈ sortPls f.plists,
      y.2.length ≤ Inv.occs y.2 ∧ 1 ≤ Inv.occs y.2 := by
    intro fi hf hix f hok y hy
    obtain ⟨e, hne⟩ := hok.mem hy
    have : y.2.length ≤ Inv.occs y.2 := by
      refine length_le_sum _ _ ?_
      intro p hp
      rw [e] at hp
      have := hposts fi hf hix _ p hp
      omega
    have hl := List.length_pos_iff.2 hne
    omega
  have htot : ∀ e ∈ flushInput T x, (e.2.map fun y => y.2.length).sum ≤ 2 ^ 28 ∧
      (e.2.map fun y => (y.2.map fun p => p.occ.length).sum).sum ≤ 2 ^ 28 := by
    intro e he
    obtain ⟨fi, f, hf, hix, rfl, _, hok⟩ := flushInput_mem hT h he
    have ht := htoks fi hf f hok
    have ho := hone fi hf hix f hok
    refine ⟨?_, Nat.le_of_lt ht⟩
    refine Nat.le_trans ?_ (Nat.le_of_lt ht)
    exact sum_le_sum _ _ _ (fun y hy => (ho y hy).1)
  have hfl := hg.fields
  refine ⟨h1, h2, h3, by omega, ?_, ?_, ?_, ?_, ?_, ?_, ?_, ?_⟩
  · -- numbers
    have hsub : ∀ l : List FI, ((l.filterMap fun fi => if isIndexed fi then (getInv x.fields fi.number).map fun f => (fi.number, sortPls f.plists) else none).map (·.1)).Sublist (l.map (·.number)) := by
      intro l
      induction l with
      | nil => exact List.Sublist.refl _
      | cons fi l ih =>
        rw [List.filterMap_cons]
        split
        · exact List.Sublist.cons _ ih
        · rename_i b hb
          split at hb
          · rw [Option.map_eq_some_iff] at hb
            obtain ⟨f, _, rfl⟩ := hb
            exact List.Sublist.cons_cons _ ih
          · cases hb
    have hnum : (T.fields.map (·.number)).Nodup := by
      unfold List.Nodup
      rw [List.pairwise_iff_getElem]
      intro i j hi hj hij
      simp only [List.length_map] at hi hj
      rw [List.getElem_map, List.getElem_map, hT.numbers i hi, hT.numbers j hj]
      omega
    exact hnum.sublist (hsub T.fields)
  · intro e he
    obtain ⟨fi, f, hf, hix, rfl, _, hok⟩ := flushInput_mem hT h he
    have := (getField_byNumber hT hf).2.2
    dsimp only
    omega
  · intro e he
    obtain ⟨fi, f, hf, hix, rfl, _, hok⟩ := flushInput_mem hT h he
    have ht := htoks fi hf f hok
    have := length_le_sum (fun y : Term × List Posting => Inv.occs y.2) (sortPls f.plists) (fun y hy => (hone fi hf hix f hok y hy).2)
    unfold occCount at ht
    dsimp only
    omega
  · intro e he
    obtain ⟨fi, f, hf, hix, rfl, _, hok⟩ := flushInput_mem hT h he
    exact sortPls_asc _ hok.keys
  · intro e he y hy
    obtain ⟨fi, f, hf, hix, rfl, _, hok⟩ := flushInput_mem hT h he
    obtain ⟨e, hne⟩ := hok.mem hy
    obtain ⟨p, hp⟩ := List.exists_mem_of_ne_nil _ hne
    rw [e] at hp
    exact (hposts fi hf hix _ p hp).2.2.2.2
  · intro e he y hy
    obtain ⟨fi, f, hf, hix, rfl, _, hok⟩ := flushInput_mem hT h he
    obtain ⟨e, hne⟩ := hok.mem hy
    have hp : ∀ p ∈ y.2, _ := fun p hp => hposts fi hf hix y.1 p (e ▸ hp)
    have hfew := hg.few
    refine ⟨?_, fun p hpp => by have := (hp p hpp).1; omega, fun p hpp => ⟨(hp p hpp).2.1, (hp p hpp).2.2.1⟩, fun p hpp => (hp p hpp).2.2.2.1, ?_, ?_⟩
    · rw [e, expected_places, List.pairwise_map]
      exact (occurrencesFrom_spec _ 0 _).1
    · rw [e, expected_places, List.length_map]
      have := (occurrencesFrom_spec (termPlaces cfg fi ds) 0 y.1).2.1
      unfold occurrences
      simp only [termPlaces, List.length_map] at this ⊢
      omega
    · have ht := htoks fi hf f hok
      have := le_sum_of_mem (f := fun y : Term × List Posting => Inv.occs y.2) hy
      exact Nat.lt_of_le_of_lt this ht
  · have := sum_le_mul (fun e : Nat × Plists => (e.2.map fun y => y.2.length).sum) (2 ^ 28) (flushInput T x) (fun e he => (htot e he).1)
    have hm : (flushInput T x).length * 2 ^ 28 < 2 ^ 28 * 2 ^ 28 := Nat.mul_lt_mul_of_pos_right (by omega) (by decide)
    exact Nat.lt_of_le_of_lt this hm
  · have := sum_le_mul (fun e : Nat × Plists => (e.2.map fun y => (y.2.map fun p => p.occ.length).sum).sum) (2 ^ 28) (flushInput T x) (fun e he => (htot e he).2)
    have hm : (flushInput T x).length * 2 ^ 28 < 2 ^ 28 * 2 ^ 28 := Nat.mul_lt_mul_of_pos_right (by omega) (by decide)
    exact Nat.lt_of_le_of_lt this hm

/-- The postings of a term in what is flushed. -/
theorem flushed_postings {cfg : Cfg} {T : FIS} (hT : WF T) {ds : List Doc} {x : Inv} (h : IOK cfg T ds x) (fi : FI) (hf : getField T fi.name = some fi) (t : Term) :
    (postingsOf (flushInput T x) fi.number t).getD [] =
      if isIndexed fi then (occurrences (termPlaces cfg fi ds) t).map fun o => ⟨o.1, o.2.length, o.2⟩ else [] := by
  unfold postingsOf
  cases hfind : (flushInput T x).find? (fun e => decide ((e.1 : Int) = fi.number)) with
  | none =>
    rw [Option.bind_none]
    cases hix : isIndexed fi with
    | false => rfl
    | true =>
      rw [List.find?_eq_none] at hfind
      have hnone : getInv x.fields fi.number = none := by
        cases hgi : getInv x.fields fi.number with
        | none => rfl
        | some f =>
          have hm : (fi.number, sortPls f.plists) ∈ flushInput T x := by
            unfold flushInput
            refine List.mem_filterMap.2 ⟨fi, ?_, ?_⟩
            · unfold getField at hf; exact List.mem_of_find?_eq_some hf
            · rw [if_pos hix, hgi]; rfl
          exact absurd (by simp) (hfind _ hm)
      have := h.fields fi hf hix
      have hl := this.lists t
      unfold inverterOf at hl
      rw [hnone] at hl
      rw [expected_places] at hl
      simp only [Option.map_none, Option.getD_none, if_true]
      unfold optList at hl
      split at hl
      · rename_i he; exact (by simpa using he : _ = []).symm
      · cases hl
  | some e =>
    have hm := List.mem_of_find?_eq_some hfind
    have hn := List.find?_some hfind
    obtain ⟨fj, f, hj, hjx, rfl, hgi, hok⟩ := flushInput_mem hT h hm
    have hnum : fj.number = fi.number := by simp only [decide_eq_true_eq] at hn; omega
    have := number_inj hT hj hf hnum
    subst this
    rw [if_pos hjx, Option.bind_some, ← expected_places]
    have hl := getPl_sort hok.keys t
    rw [hok.lists] at hl
    unfold getPl at hl
    dsimp only
    rw [hl]
    unfold optList
    split
    · rename_i he; exact (by simpa using he : _ = []).symm
    · rfl

/-- Nothing is found in a field that is not known. -/
theorem flushed_unknown {cfg : Cfg} {T : FIS} (hT : WF T) {ds : List Doc} {x : Inv} (h : IOK cfg T ds x) (n : Int) (hn : ∀ fi, getField T fi.name = some fi → (fi.number : Int) ≠ n) (t : Term) :
    postingsOf (flushInput T x) n t = none := by
  unfold postingsOf
  cases hfind : (flushInput T x).find? (fun e => decide ((e.1 : Int) = n)) with
  | none => rfl
  | some e =>
    obtain ⟨fj, f, hj, hjx, rfl, hgi, hok⟩ := flushInput_mem hT h (List.mem_of_find?_eq_some hfind)
    exact absurd (by simpa using List.find?_some hfind) (hn fj hj)

/-! ### Reading it back -/

/-- Asking for every document of a term and every position. -/
def askAll (f : Int) (t : Term) (os : List (Nat × List Int)) : List PostOp :=
  .seek f t :: (os.flatMap fun o => .next :: List.replicate o.2.length .position) ++ [.next]

/-- The documents with the number of their positions, and the positions. -/
def tellAll (os : List (Nat × List Int)) : List PostOut :=
  .done :: (os.flatMap fun o => .doc (some ((o.1 : Int), (o.2.length : Int))) :: o.2.map .pos) ++ [.doc none]

theorem run_positions (fields : List (Nat × List (Term × List Posting))) (dead : Nat → Bool) (rest : List Posting) (ops : List PostOp) :
    ∀ occ : List Int, PCur.run fields dead ⟨rest, occ⟩ (List.replicate occ.length .position ++ ops) = occ.map .pos ++ PCur.run fields dead ⟨rest, []⟩ ops := by
  intro occ
  induction occ with
  | nil => rfl
  | cons p occ ih =>
    rw [List.length_cons, List.replicate_succ, List.cons_append, PCur.run, List.map_cons, List.cons_append]
    exact congrArg _ ih

theorem run_docs (fields : List (Nat × List (Term × List Posting))) (dead : Nat → Bool) : ∀ (os : List (Nat × List Int)) (left : List Int),
    PCur.run fields dead ⟨os.map fun o => ⟨o.1, o.2.length, o.2⟩, left⟩ ((os.flatMap fun o => .next :: List.replicate o.2.length .position) ++ [.next]) =
      (os.flatMap fun o => .doc (some ((o.1 : Int), (o.2.length : Int))) :: o.2.map .pos) ++ [.doc none] := by
  intro os
  induction os with
  | nil => intro left; rfl
  | cons o os ih =>
    intro left
    simp only [List.flatMap_cons, List.cons_append, List.append_assoc, PCur.run, List.map_cons, PCur.step, PCur.take, run_positions, ih]

/-- **C62.** After any history of fields described and documents added: the writer's posting lists are written, and
asking for the documents of any term of any field gives exactly the documents in which the term is, in order, with
how often and at which positions it is there; fields that are not indexed have none.
(Texts must be shorter than 255 bytes, and positions must not go back if offsets are stored: see below.) -/
theorem c62_found_partial (Z : Zip) (hZ : Lawful Z) (cfg : Cfg) {s i v : Nat} {t0 : FIS} (h0 : fisNew s i v = .ok t0) (es : List IEvent)
    (hg : GoodHistory Z cfg (fieldsAfter t0 es) (docsIn es)) (ii si : Nat) (h1 : 0 < ii) (h2 : ii < 2 ^ 31) (h3 : 0 < si) (h4 : si < 2 ^ 31) :
    ∃ w x fs, irun Z cfg (fwOpen t0) invNew es = .ok (w, x) ∧ w.fis = fieldsAfter t0 es ∧ flush ii si (flushInput w.fis x) = .ok fs ∧
      (fs.dict.tis.length < 2 ^ 64 → fs.dict.tix.length < 2 ^ 64 → ∃ sfi, sfiOpen fs.dict = .ok sfi ∧
        ∀ fi, getField w.fis fi.name = some fi → ∀ t : Term,
          let os := if isIndexed fi then occurrences (termPlaces cfg fi (docsIn es)) t else []
          postRun sfi fs.dict.tis ⟨tirOpen, stdeNew true sfi.skipInterval none fs.frq fs.prx⟩ (askAll fi.number t os) = .ok (tellAll os)) := by
  have hwf0 := (fisNew_wf h0).1
  obtain ⟨hT, _⟩ := fieldsAfter_spec es t0 hwf0
  obtain ⟨w, x, e1, _, e3, e4, _⟩ := irun_spec hZ hT es (fwOpen t0) invNew [] hwf0 rfl (IOK.new cfg _) rfl (by simpa using hg.buffered)
    (fun d hd => ⟨hg.docs d hd, hg.inc d hd⟩)
  rw [List.nil_append] at e4
  have hseg := flushed_segment hT e4 hg ii si h1 h2 h4
  rw [← e3] at hseg
  obtain ⟨fs, f1, f2⟩ := c22_session_partial ii si _ hseg h3
  refine ⟨w, x, fs, e1, e3, f1, ?_⟩
  intro l1 l2
  obtain ⟨sfi, g1, g2⟩ := f2 l1 l2
  refine ⟨sfi, g1, ?_⟩
  intro fi hf t os
  have hdel : Deletes none (fun _ => false) := fun d => rfl
  rw [g2 true none (fun _ => false) hdel (askAll fi.number t os) (by
    intro op hop
    unfold askAll at hop
    rw [List.cons_append, List.mem_cons, List.mem_append, List.mem_flatMap] at hop
    rcases hop with rfl | ⟨o, _, ho⟩ | ho
    · rfl
    · rcases List.mem_cons.1 ho with rfl | ho
      · rfl
      · rw [List.eq_of_mem_replicate ho]; rfl
    · rw [List.mem_singleton.1 ho]; rfl)]
  have hp := flushed_postings hT e4 fi (by rw [← e3]; exact hf) t
  rw [← e3] at hp
  have hos : ((postingsOf (flushInput w.fis x) fi.number t).getD []).filter (fun p => !false) = os.map fun o => ⟨o.1, o.2.length, o.2⟩ := by
    rw [hp]
    have hfl : ∀ l : List Posting, l.filter (fun _ => !false) = l := fun l => List.filter_eq_self.2 (fun _ _ => rfl)
    rw [hfl]
    show _ = (if isIndexed fi then occurrences (termPlaces cfg fi (docsIn es)) t else []).map _
    split <;> rfl
  unfold askAll tellAll
  rw [List.cons_append, PCur.run]
  simp only [PCur.step]
  rw [hos, run_docs]
  rfl

/-! ### Term vectors -/

/-- The vector a field of a document should have: each term once and in order with its positions, and the offsets by
position. -/
def wantedVector (cfg : Cfg) (T : FIS) (d : Doc) (field : Name) : Option TV :=
  match getField T field with
  | none => none
  | some fi =>
    if isIndexed fi = true ∧ storeTermVector fi = true then
      (docTokens cfg fi d).map fun toks =>
        shownVector fi ⟨field, (termsIn (places toks)).map fun t => ⟨t, positionsOf (places toks) t⟩, if storeOffsets fi then offsetTable toks else []⟩
    else none

/-- Offsets that fit: below 2^62. -/
def GoodOffsets (cfg : Cfg) (T : FIS) (ds : List Doc) : Prop :=
  ∀ fi, getField T fi.name = some fi → storeOffsets fi = true → ∀ d ∈ ds, ∀ toks, docTokens cfg fi d = some toks → ∀ tk ∈ toks,
    0 ≤ tk.start ∧ tk.start < 2 ^ 62 ∧ 0 ≤ tk.stop ∧ tk.stop < 2 ^ 62

theorem insertTerm_length (t : Term) : ∀ l : List Term, (insertTerm t l).length ≤ l.length + 1 := by
  intro l
  induction l with
  | nil => simp [insertTerm]
  | cons y ys ih =>
    simp only [insertTerm]
    split
    · simp only [List.length_cons]; omega
    · split <;> simp

theorem termsIn_length : ∀ ps : List (Term × Int), (termsIn ps).length ≤ ps.length := by
  intro ps
  induction ps with
  | nil => simp [termsIn]
  | cons x xs ih =>
    have := insertTerm_length x.1 (termsIn xs)
    simp only [termsIn, List.length_cons]
    omega

theorem spansFrom_mem : ∀ (tks : List Token) (p : Int), ∀ s ∈ spansFrom p tks, ∃ tk ∈ tks, s.2 = (tk.start, tk.stop) ∧ (tk.text, s.1) ∈ placesFrom p tks := by
  intro tks
  induction tks with
  | nil => intro p s hs; cases hs
  | cons tk tks ih =>
    intro p s hs
    simp only [spansFrom, List.mem_cons] at hs
    rcases hs with rfl | hs
    · exact ⟨tk, by simp, rfl, by simp [placesFrom]⟩
    · obtain ⟨tk', h1, h2, h3⟩ := ih _ s hs
      exact ⟨tk', by simp [h1], h2, by simp [placesFrom, h3]⟩

theorem good_vector {toks : List Token} {b : Bool} (hlen : toks.length < 2 ^ 28)
    (htx : ∀ x ∈ places toks, x.1.length < 255 ∧ 0 ∉ x.1 ∧ -1 ≤ x.2 ∧ x.2 < 2 ^ 31 - 1)
    (hof : b = true → ∀ tk ∈ toks, 0 ≤ tk.start ∧ tk.start < 2 ^ 62 ∧ 0 ≤ tk.stop ∧ tk.stop < 2 ^ 62) :
    GoodTv (vectorTerms toks) (if b then offsetTable toks else []) := by
  have hpl : (places toks).length = toks.length := places_length toks (-1)
  refine ⟨?_, ?_, ?_, ?_⟩
  · unfold vectorTerms
    rw [List.length_map]
    have := termsIn_length (places toks)
    omega
  · intro pl hpl'
    unfold vectorTerms at hpl'
    obtain ⟨t, ht, rfl⟩ := List.mem_map.1 hpl'
    have hmem : ∀ q ∈ positionsOf (places toks) t, (t, q) ∈ places toks := by
      intro q hq
      unfold positionsOf at hq
      obtain ⟨z, hz, rfl⟩ := List.mem_map.1 hq
      have := List.mem_filter.1 hz
      simp only [decide_eq_true_eq] at this
      rw [← this.2]
      exact this.1
    refine ⟨?_, ?_, ?_⟩
    · rw [termsIn_mem] at ht
      obtain ⟨q, hq⟩ := List.exists_mem_of_ne_nil _ ht
      exact (htx _ (hmem q hq)).1
    · have : (positionsOf (places toks) t).length ≤ (places toks).length := by
        unfold positionsOf
        rw [List.length_map]
        exact List.length_filter_le _ _
      dsimp only
      omega
    · intro q hq
      have := htx _ (hmem q hq)
      unfold IsInt
      dsimp only at this
      omega
  · cases b with
    | false => simp
    | true =>
      unfold offsetTable
      simp only [if_true, List.length_map, List.length_range]
      cases hl : (spansFrom (-1) toks).getLast? with
      | none => simp
      | some s =>
        obtain ⟨tk, _, _, hm⟩ := spansFrom_mem toks (-1) s (List.mem_of_getLast? hl)
        have := htx _ hm
        simp only [Option.elim_some]
        dsimp only at this
        omega
  · cases b with
    | false => intro o ho; cases ho
    | true =>
      intro o ho
      simp only [if_true] at ho
      unfold offsetTable at ho
      obtain ⟨p, _, rfl⟩ := List.mem_map.1 ho
      unfold spanAt
      cases hl : ((spansFrom (-1) toks).filter fun s => decide (s.1 = (p : Int))).getLast? with
      | none => exact ⟨by simp, by simp, by simp, by simp⟩
      | some s =>
        obtain ⟨tk, htk, e, _⟩ := spansFrom_mem toks (-1) s (List.mem_filter.1 (List.mem_of_getLast? hl)).1
        simp only [Option.map_some, Option.getD_some, e]
        exact hof rfl tk htk

theorem find_vector {cfg : Cfg} {T : FIS} (hT : WF T) {field : Name} {fi : FI} (hf : getField T field = some fi) (hst : storeTermVector fi = true) :
    ∀ d : Doc, ((vectorsOf cfg T d).find? fun v => v.field == field).map (shownVector fi) = wantedVector cfg T d field := by
  have hname := (getField_byNumber hT hf).2.1
  intro d
  unfold wantedVector
  rw [hf]
  dsimp only
  induction d with
  | nil => simp [vectorsOf, docTokens]
  | cons f d ih =>
    unfold vectorsOf docTokens at ih ⊢
    rw [List.filterMap_cons, List.find?_cons]
    by_cases he : f.name = field
    · rw [he, hf, hname]
      have hb : (field == field) = true := by simp
      rw [hb]
      dsimp only
      by_cases hix : isIndexed fi = true
      · simp [hix, hst, vectorTerms]
      · have hc : ¬ (isIndexed fi = true ∧ storeTermVector fi = true) := fun h => hix h.1
        rw [if_neg hc] at ih ⊢
        rw [if_neg hc]
        exact ih
    · have hb : (f.name == fi.name) = false := by rw [hname]; simp [he]
      rw [hb]
      dsimp only
      rw [← ih]
      split
      · rfl
      · rename_i v hv
        have hvf : v.field = f.name := by
          cases hg : getField T f.name with
          | none => rw [hg] at hv; cases hv
          | some fj =>
            rw [hg] at hv
            dsimp only at hv
            split at hv
            · cases hv; rfl
            · cases hv
        have hvb : (v.field == field) = false := by rw [hvf]; simp [he]
        rw [List.find?_cons, hvb]

/-- **C62, term vectors.** After such a history, the vector of any field of any document is that of the tokens
indexed. -/
theorem c62_vectors_partial (Z : Zip) (hZ : Lawful Z) (cfg : Cfg) {s i v : Nat} {t0 : FIS} (h0 : fisNew s i v = .ok t0) (es : List IEvent)
    (hg : GoodHistory Z cfg (fieldsAfter t0 es) (docsIn es)) (hof : GoodOffsets cfg (fieldsAfter t0 es) (docsIn es)) :
    ∃ w x, irun Z cfg (fwOpen t0) invNew es = .ok (w, x) ∧ w.fis = fieldsAfter t0 es ∧ (w.fdt.length < 2 ^ 31 → (docsIn es).length * 12 < 2 ^ 31 →
      ∀ (k : Nat) (d : Doc), (docsIn es)[k]? = some d → ∀ field : Name,
        srTermVector (frOpen w.fdt w.fdx w.fis) k field = .ok (wantedVector cfg w.fis d field)) := by
  have hwf0 := (fisNew_wf h0).1
  obtain ⟨hT, _⟩ := fieldsAfter_spec es t0 hwf0
  obtain ⟨w, x, e1, e2, e3, e4, _⟩ := irun_spec hZ hT es (fwOpen t0) invNew [] hwf0 rfl (IOK.new cfg _) rfl (by simpa using hg.buffered)
    (fun d hd => ⟨hg.docs d hd, hg.inc d hd⟩)
  refine ⟨w, x, e1, e3, ?_⟩
  intro hl hd k d hk field
  have htab := tableAfter_seen cfg (fieldsAfter t0 es) es t0
  have hdocs := docsOf_seen cfg (fieldsAfter t0 es) es
  obtain ⟨w', f1, f2, f3⟩ := c19_field_partial Z hZ h0 (es.map (seenBy cfg (fieldsAfter t0 es))) (by
    intro p hp
    rw [hdocs] at hp
    obtain ⟨d, hdm, rfl⟩ := List.mem_map.1 hp
    rw [htab]
    have hgd := hg.docs d hdm
    have hmem : ∀ u ∈ vectorsOf cfg (fieldsAfter t0 es) d, ∃ f ∈ d, f.name = u.field ∧ ∃ fi, getField (fieldsAfter t0 es) f.name = some fi ∧ isIndexed fi = true ∧
        u.terms = vectorTerms (fieldTokens cfg fi f) ∧ u.offs = if storeOffsets fi then offsetTable (fieldTokens cfg fi f) else [] := by
      intro u hu
      unfold vectorsOf at hu
      obtain ⟨f, hf, hu⟩ := List.mem_filterMap.1 hu
      cases hgf : getField (fieldsAfter t0 es) f.name with
      | none => rw [hgf] at hu; cases hu
      | some fi =>
        rw [hgf] at hu
        dsimp only at hu
        split at hu
        · rename_i hc; cases hu; exact ⟨f, hf, rfl, fi, hgf, hc.1, rfl, rfl⟩
        · cases hu
    have hnames : ∀ l : Doc, ((vectorsOf cfg (fieldsAfter t0 es) l).map (·.field)).Sublist (l.map (·.name)) := by
      intro l
      unfold vectorsOf
      induction l with
      | nil => exact List.Sublist.refl _
      | cons f l ih =>
        rw [List.filterMap_cons]
        split
        · exact List.Sublist.cons _ ih
        · rename_i b hb
          cases hgf : getField (fieldsAfter t0 es) f.name with
          | none => rw [hgf] at hb; cases hb
          | some fi =>
            rw [hgf] at hb
            dsimp only at hb
            split at hb
            · cases hb; exact List.Sublist.cons_cons _ ih
            · cases hb
    refine ⟨⟨hgd, ?_⟩, ⟨hgd.names.sublist (hnames d), ?_, ?_⟩⟩
    · intro u hu
      obtain ⟨f, hf, e, _⟩ := hmem u hu
      exact ⟨f, hf, e⟩
    · have h1 : (vectorsOf cfg (fieldsAfter t0 es) d).length ≤ d.length := List.length_filterMap_le _ _
      have h2 := hgd.few
      dsimp only
      omega
    · intro u hu
      obtain ⟨f, hf, e, fi, hfi, hix, h1, h2⟩ := hmem u hu
      have hname := (getField_byNumber hT hfi).2.1
      have hself : getField (fieldsAfter t0 es) fi.name = some fi := by rw [hname]; exact hfi
      have hdt : docTokens cfg fi d = some (fieldTokens cfg fi f) := by
        have hn := hgd.names
        unfold docTokens
        clear h1 h2 hmem hu hp hk hdm hgd
        induction d with
        | nil => cases hf
        | cons g d ih =>
          rw [List.map_cons, List.nodup_cons] at hn
          rcases List.mem_cons.1 hf with rfl | hf
          · rw [List.find?_cons]; simp [hname]
          · rw [List.find?_cons]
            have : (g.name == fi.name) = false := by
              rw [hname]
              simp only [beq_eq_false_iff_ne, ne_eq]
              intro e
              exact hn.1 (e ▸ List.mem_map.2 ⟨f, hf, rfl⟩)
            rw [this]
            exact ih hf hn.2
      rw [h1, h2]
      have hpm : places (fieldTokens cfg fi f) ∈ termPlaces cfg fi (docsIn es) := by
        unfold termPlaces
        refine List.mem_map.2 ⟨d, hdm, ?_⟩
        rw [hdt]
        rfl
      refine good_vector ?_ (hg.texts fi hself hix _ hpm) (fun hb => hof fi hself hb d hdm _ hdt)
      have h3 := le_sum_of_mem (f := List.length) hpm
      have h4 := hg.tokens fi hself
      have h5 := places_length (fieldTokens cfg fi f) (-1)
      unfold places at h3
      omega)
  rw [e2] at f1
  cases f1
  have hgoal := (f3 [] (by
    rw [e3]
    have := hg.fields
    show (fieldsAfter t0 es).fields.length < _
    omega) hl (by rw [hdocs, List.length_map]; exact hd)).1 k d (vectorsOf cfg (fieldsAfter t0 es) d) (by rw [hdocs, List.getElem?_map, hk]; rfl) field
  have hfr : frOpen w.fdt w.fdx (tableAfter w.fis []) = frOpen w.fdt w.fdx w.fis := rfl
  rw [hfr] at hgoal
  rw [hgoal]
  have hfis : (frOpen w.fdt w.fdx w.fis).fis = fieldsAfter t0 es := e3
  rw [hfis, e3]
  congr 1
  unfold vectorOf
  cases hgf : getField (fieldsAfter t0 es) field with
  | none => unfold wantedVector; rw [hgf]
  | some fi =>
    dsimp only
    by_cases hst : storeTermVector fi = true
    · rw [if_pos hst]
      exact find_vector hT hgf hst d
    · rw [if_neg hst]
      unfold wantedVector
      rw [hgf]
      dsimp only
      rw [if_neg (fun h => hst h.2)]

/-! ### Norms -/

theorem hasNorms_iff (fi : FI) : hasNorms fi = true ↔ isIndexed fi = true ∧ omitNorms fi = false := by
  unfold hasNorms isIndexed omitNorms
  have h : ∀ m : Nat, m < 32 → fi.bits &&& m = (fi.bits % 32) &&& m := by
    intro m hm
    have h1 : (fi.bits &&& m) % 2 ^ 5 = (fi.bits % 2 ^ 5) &&& (m % 2 ^ 5) := Nat.and_mod_two_pow
    have h2 : fi.bits &&& m ≤ m := Nat.and_le_right
    rw [Nat.mod_eq_of_lt (by omega), Nat.mod_eq_of_lt (a := m) (by omega)] at h1
    exact h1
  rw [h 20 (by omega), h 4 (by omega), h 16 (by omega)]
  have hlt : fi.bits % 32 < 32 := Nat.mod_lt _ (by omega)
  generalize fi.bits % 32 = n at hlt
  revert n
  decide

/-- **C62, norms.** After such a history, a field with norms that some document has gets one byte per document: the
norm of the document's terms, or zero if it has not the field. Other fields get none. -/
theorem c62_norms (Z : Zip) (hZ : Lawful Z) (cfg : Cfg) {s i v : Nat} {t0 : FIS} (h0 : fisNew s i v = .ok t0) (es : List IEvent)
    (hg : GoodHistory Z cfg (fieldsAfter t0 es) (docsIn es)) :
    ∃ w x, irun Z cfg (fwOpen t0) invNew es = .ok (w, x) ∧ w.fis = fieldsAfter t0 es ∧
      ∀ fi, getField w.fis fi.name = some fi →
        ((flushNorms w.fis x).find? fun e => e.1 == fi.number).map (·.2) =
          if hasNorms fi = true ∧ (docsIn es).any (fun d => (docTokens cfg fi d).isSome) = true then
            some ((docsIn es).mapIdx fun k d => match docTokens cfg fi d with | some toks => cfg.norm fi k toks.length | none => 0)
          else none := by
  have hwf0 := (fisNew_wf h0).1
  obtain ⟨hT, _⟩ := fieldsAfter_spec es t0 hwf0
  obtain ⟨w, x, e1, e2, e3, e4, e5⟩ := irun_spec hZ hT es (fwOpen t0) invNew [] hwf0 rfl (IOK.new cfg _) rfl (by simpa using hg.buffered)
    (fun d hd => ⟨hg.docs d hd, hg.inc d hd⟩)
  rw [List.nil_append] at e4 e5
  refine ⟨w, x, e1, e3, ?_⟩
  rw [e3]
  intro fi hf
  -- the entry of a field
  have hfind : ∀ l : List FI, (l.map (·.number)).Nodup → ((l.filterMap fun fj => if isIndexed fj ∧ omitNorms fj = false then (getInv x.fields fj.number).map fun f => (fj.number, f.norms.take x.docNum) else none).find? fun e => e.1 == fi.number) =
      (l.find? fun fj => fj.number == fi.number).bind fun fj => if isIndexed fj ∧ omitNorms fj = false then (getInv x.fields fj.number).map fun f => (fj.number, f.norms.take x.docNum) else none := by
    intro l
    induction l with
    | nil => intro _; rfl
    | cons g l ih =>
      intro hn
      rw [List.map_cons, List.nodup_cons] at hn
      rw [List.filterMap_cons, List.find?_cons]
      by_cases hgn : g.number = fi.number
      · have hb : (g.number == fi.number) = true := by simp [hgn]
        rw [hb]
        dsimp only
        rw [Option.bind_some]
        split
        · rename_i hnone
          rw [hnone, ih hn.2]
          have : l.find? (fun fj => fj.number == fi.number) = none := by
            rw [List.find?_eq_none]
            intro y hy hby
            exact hn.1 (List.mem_map.2 ⟨y, hy, by rw [hgn]; simpa using hby⟩)
          rw [this]
          rfl
        · rename_i b hb2
          rw [hb2, List.find?_cons]
          have : b.1 = fi.number := by
            split at hb2
            · rw [Option.map_eq_some_iff] at hb2
              obtain ⟨f, _, rfl⟩ := hb2
              exact hgn
            · cases hb2
          simp [this]
      · have hb : (g.number == fi.number) = false := by simp [hgn]
        rw [hb]
        dsimp only
        rw [← ih hn.2]
        split
        · rfl
        · rename_i b hb2
          have : (b.1 == fi.number) = false := by
            split at hb2
            · rw [Option.map_eq_some_iff] at hb2
              obtain ⟨f, _, rfl⟩ := hb2
              exact hb
            · cases hb2
          rw [List.find?_cons, this]
  have hnum : ((fieldsAfter t0 es).fields.map (·.number)).Nodup := by
    unfold List.Nodup
    rw [List.pairwise_iff_getElem]
    intro i j hi hj hij
    simp only [List.length_map] at hi hj
    rw [List.getElem_map, List.getElem_map, hT.numbers i hi, hT.numbers j hj]
    omega
  have hself : (fieldsAfter t0 es).fields.find? (fun fj => fj.number == fi.number) = some fi := by
    cases hfd : (fieldsAfter t0 es).fields.find? (fun fj => fj.number == fi.number) with
    | none =>
      rw [List.find?_eq_none] at hfd
      unfold getField at hf
      exact absurd (by simp) (hfd fi (List.mem_of_find?_eq_some hf))
    | some g =>
      have g1 := List.mem_of_find?_eq_some hfd
      have g2 := List.find?_some hfd
      simp only [beq_iff_eq] at g2
      obtain ⟨i, hi, ei⟩ := List.getElem_of_mem g1
      have g3 := hT.numbers i hi
      rw [ei] at g3
      have g4 := (getField_byNumber hT hf).1
      unfold byNumber at g4
      rw [← g2, g3, List.getElem?_eq_getElem hi, ei] at g4
      rw [g4]
  unfold flushNorms
  rw [hfind _ hnum, hself, Option.bind_some]
  by_cases hn : hasNorms fi = true
  · have hn' := (hasNorms_iff fi).1 hn
    rw [if_pos hn']
    have hseen := e4.seen fi hf hn'.1
    cases hgi : getInv x.fields fi.number with
    | none =>
      have hall := hseen.1 hgi
      have hany : ¬ ((docsIn es).any (fun d => (docTokens cfg fi d).isSome) = true) := by
        rw [List.any_eq_true]
        rintro ⟨d, hd, hs⟩
        rw [hall d hd] at hs
        cases hs
      rw [if_neg (fun h => hany h.2)]
      rfl
    | some f =>
      have hany : (docsIn es).any (fun d => (docTokens cfg fi d).isSome) = true := by
        cases hb : (docsIn es).any (fun d => (docTokens cfg fi d).isSome) with
        | true => rfl
        | false =>
          rw [List.any_eq_false] at hb
          have := hseen.2 (fun d hd => by simpa using hb d hd)
          rw [hgi] at this
          cases this
      rw [if_pos ⟨hn, hany⟩]
      have hok := e4.fields fi hf hn'.1
      unfold inverterOf at hok
      rw [hgi] at hok
      simp only [Option.map_some, Option.some.injEq]
      rw [e5]
      have hbuf := hg.buffered
      have hroom := hok.room
      rw [Option.getD_some] at hroom hok
      apply List.ext_getElem?
      intro k
      rw [List.getElem?_take, List.getElem?_mapIdx]
      by_cases hk : k < (docsIn es).length
      · rw [if_pos hk, hok.norms hn k (by omega), List.getElem?_eq_getElem hk]
        unfold normAt
        rw [List.getElem?_map, List.getElem?_eq_getElem hk]
        simp only [Option.map_some]
        cases docTokens cfg fi (docsIn es)[k] <;> rfl
      · rw [if_neg hk, List.getElem?_eq_none (by omega)]
        rfl
  · rw [if_neg (fun h => hn ((hasNorms_iff fi).2 h)), if_neg (fun h => hn h.1)]
    rfl

/-! ### A case -/

/-- Every byte is a token. -/
def byteCfg (max : Int) : Cfg := ⟨fun _ d => d.mapIdx fun i b => ⟨[b], i, i + 1, 1⟩, fun _ _ n => UInt8.ofNat n, max, 10⟩

/-- A text field with vectors, positions and offsets; an untokenized one; one that is only stored. -/
def indexEvents : List IEvent :=
  [.field ⟨[98], boostOne, 1 ||| 4 ||| 8 ||| 32 ||| 64 ||| 128, 0⟩,
   .doc [⟨[98], [[97, 98], [97]]⟩, ⟨[105], [[120, 121]]⟩],
   .field ⟨[115], boostOne, 1, 0⟩,
   .doc [⟨[115], [[97]]⟩],
   .doc [⟨[98], [[97]]⟩, ⟨[115], [[97]]⟩]]

theorem indexEvents_good : GoodHistory plusOne (byteCfg 10) (fieldsAfter sampleTable indexEvents) (docsIn indexEvents) := by
  have hin : ∀ fi, getField (fieldsAfter sampleTable indexEvents) fi.name = some fi → fi ∈ (fieldsAfter sampleTable indexEvents).fields := by
    intro fi h; unfold getField at h; exact List.mem_of_find?_eq_some h
  have hdoc : ∀ d : Doc, (d.map (·.name)).Nodup → d.length < 100 → (∀ f ∈ d, f.data.length < 100 ∧ ∀ x ∈ f.data, x.length < 100) →
      GoodDoc plusOne (fieldsAfter sampleTable indexEvents) d := by
    intro d h1 h2 h3
    refine ⟨h1, by omega, ?_⟩
    intro s hs
    have hm := (storedOf_mem (fieldsAfter_spec indexEvents sampleTable (fisNew_wf (s := 1) (i := 3) (v := 0) rfl).1).1 hs).2.2.1
    refine ⟨by have := (h3 _ hm).1; omega, fun x hx => ?_⟩
    have := (h3 _ hm).2 x hx
    unfold GoodData zipBuffer plusOne
    split
    · simp; omega
    · omega
  refine ⟨?_, ?_, ?_, by decide, by decide, ?_, by decide⟩
  · intro d hd
    simp only [indexEvents, Inv.docsIn, List.mem_cons, List.not_mem_nil, or_false] at hd
    rcases hd with rfl | rfl | rfl <;> exact hdoc _ (by decide) (by decide) (by decide)
  · intro d _ f _ fi _ _ _ x _
    refine ⟨fun tk htk => ?_, fun tk htk => ?_⟩
    · simp only [byteCfg, List.mem_mapIdx] at htk
      obtain ⟨i, hi, rfl⟩ := htk
      show (_ : Int) ≤ 1
      decide
    · have htk := List.mem_of_head? htk
      simp only [byteCfg, List.mem_mapIdx] at htk
      obtain ⟨i, hi, rfl⟩ := htk
      show (_ : Int) ≤ 1
      decide
  · intro fi hf hix
    have := hin fi hf
    clear hf hix
    revert fi
    decide
  · intro fi hf
    have := hin fi hf
    clear hf
    revert fi
    decide

example : GoodOffsets (byteCfg 10) (fieldsAfter sampleTable indexEvents) (docsIn indexEvents) := by
  intro fi hf _ d hd toks ht tk htk
  have hin : fi ∈ (fieldsAfter sampleTable indexEvents).fields := by unfold getField at hf; exact List.mem_of_find?_eq_some hf
  have h : ∀ fi ∈ (fieldsAfter sampleTable indexEvents).fields, ∀ d ∈ docsIn indexEvents, ∀ tk ∈ (docTokens (byteCfg 10) fi d).getD [],
      0 ≤ tk.start ∧ tk.start < 2 ^ 62 ∧ 0 ≤ tk.stop ∧ tk.stop < 2 ^ 62 := by decide
  exact h fi hin d hd tk (by rw [ht]; exact htk)

/-- What is found of "a" in the text field, by position: twice in the first document, once in the third. -/
example : (irun plusOne (byteCfg 10) (fwOpen sampleTable) invNew indexEvents >>= fun r =>
    flush 2 4 (flushInput r.1.fis r.2) >>= fun fs => sfiOpen fs.dict >>= fun sfi =>
    postRun sfi fs.dict.tis ⟨tirOpen, stdeNew true sfi.skipInterval none fs.frq fs.prx⟩ [.seek 0 [97], .next, .position, .position, .next, .position, .next]) =
    .ok [.done, .doc (some (0, 2)), .pos 0, .pos 2, .doc (some (2, 1)), .pos 0, .doc none] := by decide +kernel

example : (irun plusOne (byteCfg 10) (fwOpen sampleTable) invNew indexEvents >>= fun r => .ok (flushNorms r.1.fis r.2)) =
    .ok [(0, [3, 0, 1]), (1, [2, 0, 0])] := by decide +kernel

example : (irun plusOne (byteCfg 10) (fwOpen sampleTable) invNew indexEvents >>= fun r => srTermVector (frOpen r.1.fdt r.1.fdx r.1.fis) 0 [98]) =
    .ok (some ⟨0, [98], [⟨[97], 2, some [0, 2]⟩, ⟨[98], 1, some [1]⟩], some [(0, 1), (1, 2), (3, 4)]⟩) := by decide +kernel

/-! ### Where the code does not do it -/

/-- An analyzer whose third token goes back to an earlier position, except for "a", which has tokens at positions 0
and 3. -/
def backCfg : Cfg :=
  ⟨fun _ d => if d = [97] then [⟨[97], 5, 6, 1⟩, ⟨[98], 6, 7, 3⟩] else [⟨[97], 0, 1, 1⟩, ⟨[98], 1, 2, 2⟩, ⟨[99], 2, 3, -2⟩], fun _ _ _ => 0, 10, 10⟩

/-- If positions go back, the offsets beyond the last one stay in the writer: the next document, which has no token at
position 2, shows the previous document's offsets there. -/
theorem c62_stale_offsets :
    (irun plusOne backCfg (fwOpen sampleTable) invNew
      [.field ⟨[98], boostOne, 4 ||| 8 ||| 32 ||| 64 ||| 128, 0⟩, .doc [⟨[98], [[120]]⟩], .doc [⟨[98], [[97]]⟩]] >>= fun r =>
      srTermVector (frOpen r.1.fdt r.1.fdx r.1.fis) 1 [98]) =
      .ok (some ⟨0, [98], [⟨[97], 1, some [0]⟩, ⟨[98], 1, some [3]⟩], some [(5, 6), (0, 0), (1, 2), (6, 7)]⟩) ∧
    wantedVector backCfg ⟨1, 3, 0, [⟨[98], boostOne, 4 ||| 8 ||| 32 ||| 64 ||| 128, 0⟩]⟩ [⟨[98], [[97]]⟩] [98] =
      some ⟨0, [98], [⟨[97], 1, some [0]⟩, ⟨[98], 1, some [3]⟩], some [(5, 6), (0, 0), (0, 0), (6, 7)]⟩ := by
  decide +kernel

/-- A value of 255 bytes of an untokenized field is a term of 255 bytes (values of 256 bytes or more are cut to 254):
it is written, and reading it back writes a zero after the 255 bytes of the reader's buffer. -/
theorem c62_long_term_ub :
    (irun plusOne (byteCfg 10) (fwOpen sampleTable) invNew
      [.field ⟨[98], boostOne, 4 ||| 32, 0⟩, .doc [⟨[98], [List.replicate 255 97]⟩]] >>= fun r =>
      srTermVector (frOpen r.1.fdt r.1.fdx r.1.fis) 0 [98]) = .ub ∧
    (irun plusOne (byteCfg 10) (fwOpen sampleTable) invNew
      [.field ⟨[98], boostOne, 4 ||| 32, 0⟩, .doc [⟨[98], [List.replicate 256 97]⟩]] >>= fun r =>
      srTermVector (frOpen r.1.fdt r.1.fdx r.1.fis) 0 [98]) = .ok (some ⟨0, [98], [⟨List.replicate 254 97, 1, none⟩], none⟩) := by
  decide +kernel

#print axioms c62_found_partial
#print axioms c62_vectors_partial
#print axioms c62_norms
#print axioms c62_stale_offsets
#print axioms c62_long_term_ub
end Ferret.Props
