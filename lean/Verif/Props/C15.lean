import Verif.Lemmas.FieldInfos
import Verif.Spec.FieldInfos

/-! C15: field infos survive a write/read cycle. -/

namespace Ferret.Props
open Ferret Ferret.Spec Ferret.Fis

/-- fi_new, the boost set by the caller, and fis_add_field; or fis_get_or_add_field. -/
def doFieldOp (t : FIS) : FieldOp → Res FIS
  | .add f => fiNew f.name f.store.num f.index.num f.tv.num >>= fun fi => addField t { fi with boost := f.boost }
  | .use n => getOrAdd t n

def doFieldOps : FIS → List FieldOp → Res FIS
  | t, [] => .ok t
  | t, op :: ops => doFieldOp t op >>= fun t => doFieldOps t ops

/-- The field shows the user's description, and stands at its place. -/
structure Shows (f : FI) (d : FieldDesc) (i : Nat) : Prop where
  name : f.name = d.name
  boost : f.boost = d.boost
  number : f.number = i
  stored : isStored f = (d.store != .no)
  compressed : isCompressed f = (d.store == .compress)
  indexed : isIndexed f = (d.index != .no)
  tokenized : isTokenized f = (d.index == .yes || d.index == .yesOmitNorms)
  omits : omitNorms f = (d.index == .untokenizedOmitNorms || d.index == .yesOmitNorms)
  norms : hasNorms f = (d.index == .untokenized || d.index == .yes)
  tv : storeTermVector f = (d.tv != .no)
  pos : storePositions f = (d.tv == .positions || d.tv == .positionsOffsets)
  off : storeOffsets f = (d.tv == .offsets || d.tv == .positionsOffsets)

/-- The table shows the list of descriptions: same order, found by name and by number. -/
structure TableShows (t : FIS) (l : List FieldDesc) : Prop where
  length : t.fields.length = l.length
  field : ∀ i (d : FieldDesc), l[i]? = some d → ∃ f, byNumber t i = some f ∧ Shows f d i ∧ getField t d.name = some f ∧ getFieldNum t d.name = i
  absent : ∀ n, n ∉ l.map (·.name) → getField t n = none ∧ getFieldNum t n = -1

theorem fiNew_shows (n : Name) (s : StoreOpt) (i : IndexOpt) (v : TvOpt) (b k : Nat) (h : allowed i v) :
    ∃ bits, fiNew n s.num i.num v.num = .ok ⟨n, boostOne, bits, 0⟩ ∧ bits < 256 ∧ Shows ⟨n, b, bits, k⟩ ⟨n, s, i, v, b⟩ k := by
  have : ¬ (i.num = 0 ∧ v.num ≠ 0) := by
    revert h; cases i <;> cases v <;> simp [allowed, IndexOpt.num, TvOpt.num]
  refine ⟨_, by unfold fiNew checkParams; rw [if_neg this]; rfl, ?_, ?_⟩
  · cases s <;> cases i <;> cases v <;> decide
  · cases s <;> cases i <;> cases v <;> (constructor <;> first | rfl | (simp only [isStored, isCompressed, isIndexed, isTokenized, omitNorms, hasNorms, storeTermVector, storePositions, storeOffsets]; decide))

theorem fiNew_refused (n : Name) (s : StoreOpt) (i : IndexOpt) (v : TvOpt) (h : ¬ allowed i v) :
    fiNew n s.num i.num v.num = .raise .arg := by
  have : i.num = 0 ∧ v.num ≠ 0 := by
    revert h; cases i <;> cases v <;> simp [allowed, IndexOpt.num, TvOpt.num]
  unfold fiNew checkParams
  rw [if_pos this]
  rfl

/-- The relation kept between the table and the descriptions. -/
structure FRel (ds : StoreOpt) (di : IndexOpt) (dv : TvOpt) (t : FIS) (l : List FieldDesc) : Prop where
  wf : WF t
  defaults : t.store = ds.num ∧ t.index = di.num ∧ t.termVector = dv.num
  length : t.fields.length = l.length
  field : ∀ i (d : FieldDesc), l[i]? = some d → ∃ f, t.fields[i]? = some f ∧ Shows f d i ∧ f.bits < 256

theorem FRel.names {ds di dv} {t : FIS} {l : List FieldDesc} (h : FRel ds di dv t l) : t.fields.map (·.name) = l.map (·.name) := by
  apply List.ext_getElem?
  intro i
  simp only [List.getElem?_map]
  cases hl : l[i]? with
  | none =>
    rw [List.getElem?_eq_none_iff] at hl
    rw [List.getElem?_eq_none (by have := h.length; omega)]
    rfl
  | some d =>
    obtain ⟨f, h1, h2, -⟩ := h.field i d hl
    rw [h1]
    simp [h2.name]

theorem FRel.has {ds di dv} {t : FIS} {l : List FieldDesc} (h : FRel ds di dv t l) (n : Name) :
    (getField t n).isSome = l.any (·.name == n) := by
  cases hg : getField t n with
  | none =>
    rw [getField_none, h.names] at hg
    symm
    rw [Option.isSome_none, List.any_eq_false]
    intro d hd e
    exact hg (List.mem_map.mpr ⟨d, hd, beq_iff_eq.mp e⟩)
  | some f =>
    symm
    rw [Option.isSome_some, List.any_eq_true]
    have hin : n ∈ t.fields.map (·.name) := by
      apply Classical.byContradiction
      intro hn
      rw [getField_none.mpr hn] at hg
      cases hg
    rw [h.names, List.mem_map] at hin
    obtain ⟨d, hd, e⟩ := hin
    exact ⟨d, hd, beq_iff_eq.mpr e⟩

theorem FRel.append {ds di dv} {t : FIS} {l : List FieldDesc} (h : FRel ds di dv t l) (f : FI) (d : FieldDesc)
    (hn : getField t f.name = none) (hs : Shows { f with number := t.fields.length } d t.fields.length) (hb : f.bits < 256) :
    ∃ t', addField t f = .ok t' ∧ FRel ds di dv t' (l ++ [d]) := by
  refine ⟨_, by unfold addField; rw [hn], ?_⟩
  refine ⟨addField_wf h.wf (f := f) (by unfold addField; rw [hn]), h.defaults, by simp [h.length], ?_⟩
  intro i e he
  simp only [List.getElem?_append] at he ⊢
  rw [h.length]
  split at he
  · rename_i hlt
    rw [if_pos hlt]
    exact h.field i e he
  · rename_i hlt
    rw [if_neg hlt]
    have h0 : i - l.length = 0 := by
      rcases Nat.eq_zero_or_pos (i - l.length) with h | h
      · exact h
      · rw [List.getElem?_eq_none (by simp; omega)] at he; cases he
    rw [h0] at he ⊢
    simp at he
    subst he
    have hi : i = t.fields.length := by have := h.length; omega
    exact ⟨_, rfl, by rw [hi, ← h.length]; exact hs, hb⟩

theorem doFieldOp_spec {ds di dv} (hall : allowed di dv) {t : FIS} {l : List FieldDesc} (h : FRel ds di dv t l) (op : FieldOp) :
    (∀ l', fieldOp ds di dv l op = some l' → ∃ t', doFieldOp t op = .ok t' ∧ FRel ds di dv t' l') ∧
    (fieldOp ds di dv l op = none → doFieldOp t op = .raise .arg) := by
  cases op with
  | add f =>
    simp only [fieldOp, doFieldOp]
    have hh := h.has f.name
    by_cases ha : allowed f.index f.tv
    · obtain ⟨bits, h1, h2, h3⟩ := fiNew_shows f.name f.store f.index f.tv f.boost t.fields.length ha
      rw [h1, Res.ok_bind]
      by_cases hany : l.any (·.name == f.name) = true
      · rw [if_pos (Or.inl hany)]
        refine ⟨fun _ e => (nomatch e), fun _ => ?_⟩
        rw [hany] at hh
        unfold addField
        cases hg : getField t f.name with
        | none => rw [hg] at hh; cases hh
        | some g => rfl
      · rw [if_neg (fun o => o.elim hany (fun c => c ha))]
        refine ⟨?_, fun e => by cases e⟩
        intro l' e
        cases e
        have hg : getField t f.name = none := by
          cases hg : getField t f.name with
          | none => rfl
          | some g => rw [hg] at hh; exact absurd hh.symm hany
        exact h.append ⟨f.name, f.boost, bits, 0⟩ f hg h3 h2
    · rw [if_pos (Or.inr ha), fiNew_refused _ _ _ _ ha]
      exact ⟨fun _ e => (nomatch e), fun _ => rfl⟩
  | use n =>
    simp only [fieldOp, doFieldOp, getOrAdd]
    have hh := h.has n
    cases hg : getField t n with
    | some g =>
      rw [hg] at hh
      rw [if_pos (by rw [← hh]; rfl)]
      exact ⟨fun l' e => by cases e; exact ⟨t, rfl, h⟩, fun e => by cases e⟩
    | none =>
      rw [hg] at hh
      rw [if_neg (by rw [← hh]; simp)]
      refine ⟨?_, fun e => by cases e⟩
      intro l' e
      cases e
      obtain ⟨bits, h1, h2, h3⟩ := fiNew_shows n ds di dv boostOne t.fields.length hall
      simp only [h.defaults.1, h.defaults.2.1, h.defaults.2.2, h1, Res.ok_bind]
      exact h.append ⟨n, boostOne, bits, 0⟩ ⟨n, ds, di, dv, boostOne⟩ hg h3 h2

theorem doFieldOps_spec {ds di dv} (hall : allowed di dv) : ∀ (ops : List FieldOp) {t : FIS} {l l' : List FieldDesc}, FRel ds di dv t l →
    fieldOps ds di dv l ops = some l' → ∃ t', doFieldOps t ops = .ok t' ∧ FRel ds di dv t' l' := by
  intro ops
  induction ops with
  | nil => intro t l l' h e; cases e; exact ⟨t, rfl, h⟩
  | cons op ops ih =>
    intro t l l' h e
    simp only [fieldOps, Option.bind_eq_some_iff] at e
    obtain ⟨l1, e1, e2⟩ := e
    obtain ⟨t1, h1, h2⟩ := (doFieldOp_spec hall h op).1 l1 e1
    obtain ⟨t2, h3, h4⟩ := ih h2 e2
    exact ⟨t2, by rw [doFieldOps, h1, Res.ok_bind, h3], h4⟩

theorem fisNew_rel (ds : StoreOpt) (di : IndexOpt) (dv : TvOpt) (h : allowed di dv) :
    ∃ t, fisNew ds.num di.num dv.num = .ok t ∧ FRel ds di dv t [] := by
  have : ¬ (di.num = 0 ∧ dv.num ≠ 0) := by
    revert h; cases di <;> cases dv <;> simp [allowed, IndexOpt.num, TvOpt.num]
  refine ⟨⟨ds.num, di.num, dv.num, []⟩, by unfold fisNew checkParams; rw [if_neg this]; rfl, ?_⟩
  exact ⟨⟨this, fun i hi => absurd hi (by simp), by simp⟩, ⟨rfl, rfl, rfl⟩, rfl, fun i d e => by simp at e⟩

theorem FRel.shows {ds di dv} {t : FIS} {l : List FieldDesc} (h : FRel ds di dv t l) : TableShows t l := by
  refine ⟨h.length, ?_, ?_⟩
  · intro i d e
    obtain ⟨f, h1, h2, h3⟩ := h.field i d e
    have hget : getField t d.name = some f := by
      obtain ⟨hi, hf⟩ := List.getElem?_eq_some_iff.mp h1
      have hsome : (getField t d.name).isSome = true := by
        rw [h.has, List.any_eq_true]
        exact ⟨d, List.mem_of_getElem? e, by simp⟩
      obtain ⟨g, hg⟩ := Option.isSome_iff_exists.mp hsome
      have hgm := List.mem_of_find?_eq_some hg
      have hgn := List.find?_some hg
      simp only [beq_iff_eq] at hgn
      obtain ⟨j, hj, hjg⟩ := List.mem_iff_getElem.mp hgm
      have hnd := h.wf.names
      have : j = i := by
        have hp := (List.getElem_inj (h₀ := by simpa using hj) (h₁ := by simpa using hi) hnd).mp (by
          simp only [List.getElem_map]
          rw [hjg, hf, hgn, h2.name])
        exact hp
      subst this
      rw [hg, ← hjg, hf]
    exact ⟨f, h1, h2, hget, by unfold getFieldNum; rw [hget]; simp [h2.number]⟩
  · intro n hn
    have : getField t n = none := by rw [getField_none, h.names]; exact hn
    exact ⟨this, by unfold getFieldNum; rw [this]⟩

/-- The names and boosts fit: a name shorter than 2^31 and 32 bits of float. -/
def fieldFits (d : FieldDesc) : Prop := d.name.length < 2 ^ 31 ∧ d.boost < 2 ^ 32

/-- **C15.** Whatever sequence of fields is added to or used in a new table, if no call is refused,
the table shows the fields as described, in order; what it writes is read back, whatever follows
in the file, as exactly the same table (so it shows the same fields, numbers, boosts and flags). -/
theorem c15_round_trip (ds : StoreOpt) (di : IndexOpt) (dv : TvOpt) (hall : allowed di dv) (ops : List FieldOp) (l : List FieldDesc)
    (h : fieldOps ds di dv [] ops = some l) (hf : ∀ d ∈ l, fieldFits d) (hl : l.length < 2 ^ 31) :
    ∃ t, (fisNew ds.num di.num dv.num >>= fun t => doFieldOps t ops) = .ok t ∧ TableShows t l ∧
      ∀ rest, fisRead (fisWrite t ++ rest) = .ok (t, rest) := by
  obtain ⟨t0, e0, r0⟩ := fisNew_rel ds di dv hall
  obtain ⟨t, e1, r1⟩ := doFieldOps_spec hall ops r0 h
  refine ⟨t, by rw [e0, Res.ok_bind, e1], r1.shows, ?_⟩
  refine (fisRead_spec t r1.wf ⟨?_, ?_, ?_, by rw [r1.length]; exact hl, ?_⟩).1
  · rw [r1.defaults.1]; cases ds <;> decide
  · rw [r1.defaults.2.1]; cases di <;> decide
  · rw [r1.defaults.2.2]; cases dv <;> decide
  · intro f hfm
    obtain ⟨i, hi, he⟩ := List.mem_iff_getElem.mp hfm
    have hi' : i < l.length := by rw [← r1.length]; exact hi
    obtain ⟨g, g1, g2, g3⟩ := r1.field i l[i] (List.getElem?_eq_getElem hi')
    rw [List.getElem?_eq_getElem hi, he] at g1
    cases g1
    have := hf l[i] (List.getElem_mem hi')
    unfold fieldFits at this
    rw [g2.name, g2.boost]
    exact ⟨this.1, this.2, by omega⟩

/-- Two fields added, one used twice; an untokenized field and a compressed one with term vectors. -/
def sampleFieldOps : List FieldOp :=
  [.add ⟨[105, 100], .yes, .untokenized, .no, 0x40000000⟩, .use [120], .add ⟨[116], .compress, .yes, .positionsOffsets, 0x3F000000⟩, .use [120]]

example : ((fieldOps .no .yes .no [] sampleFieldOps).map fun l => l.map (·.name)) = some [[105, 100], [120], [116]] ∧
    (fieldOps .no .yes .no [] sampleFieldOps).any (fun l => l.all fun d => decide (d.name.length < 2 ^ 31) && decide (d.boost < 2 ^ 32)) = true := by
  decide

/-- **C15, refusals.** A call is refused with an argument error exactly when the field is there
already or asks for the term vectors of an unindexed field; the table is as it was. -/
theorem c15_refusals (ds : StoreOpt) (di : IndexOpt) (dv : TvOpt) (hall : allowed di dv) (ops : List FieldOp) (l : List FieldDesc)
    (h : fieldOps ds di dv [] ops = some l) (op : FieldOp) :
    ∃ t, (fisNew ds.num di.num dv.num >>= fun t => doFieldOps t ops) = .ok t ∧
      ((fieldOp ds di dv l op = none → doFieldOp t op = .raise .arg) ∧
       (∀ l', fieldOp ds di dv l op = some l' → ∃ t', doFieldOp t op = .ok t' ∧ TableShows t' l')) := by
  obtain ⟨t0, e0, r0⟩ := fisNew_rel ds di dv hall
  obtain ⟨t, e1, r1⟩ := doFieldOps_spec hall ops r0 h
  refine ⟨t, by rw [e0, Res.ok_bind, e1], (doFieldOp_spec hall r1 op).2, ?_⟩
  intro l' e
  obtain ⟨t', h1, h2⟩ := (doFieldOp_spec hall r1 op).1 l' e
  exact ⟨t', h1, h2.shows⟩

example : ((fieldOps .no .yes .no [] sampleFieldOps).bind fun l => fieldOp .no .yes .no l (.add ⟨[120], .no, .yes, .no, 0⟩)) = none := by
  decide

/-- A table cut short is not taken for another one: reading any proper part of what was written
raises EOF, except that within the first numbers, before there is a table, the error handler
dereferences NULL. -/
theorem c15_truncated_partial (ds : StoreOpt) (di : IndexOpt) (dv : TvOpt) (hall : allowed di dv) (ops : List FieldOp) (l : List FieldDesc)
    (h : fieldOps ds di dv [] ops = some l) (hf : ∀ d ∈ l, fieldFits d) (hl : l.length < 2 ^ 31) :
    ∃ t, (fisNew ds.num di.num dv.num >>= fun t => doFieldOps t ops) = .ok t ∧
      (∀ k, 3 ≤ k → k < (fisWrite t).length → fisRead ((fisWrite t).take k) = .raise .eof) ∧
      (∀ k, k < 3 → fisRead ((fisWrite t).take k) = .ub) := by
  obtain ⟨t0, e0, r0⟩ := fisNew_rel ds di dv hall
  obtain ⟨t, e1, r1⟩ := doFieldOps_spec hall ops r0 h
  have hfit : Fits t := by
    refine ⟨?_, ?_, ?_, by rw [r1.length]; exact hl, ?_⟩
    · rw [r1.defaults.1]; cases ds <;> decide
    · rw [r1.defaults.2.1]; cases di <;> decide
    · rw [r1.defaults.2.2]; cases dv <;> decide
    · intro f hfm
      obtain ⟨i, hi, he⟩ := List.mem_iff_getElem.mp hfm
      have hi' : i < l.length := by rw [← r1.length]; exact hi
      obtain ⟨g, g1, g2, g3⟩ := r1.field i l[i] (List.getElem?_eq_getElem hi')
      rw [List.getElem?_eq_getElem hi, he] at g1
      cases g1
      have := hf l[i] (List.getElem_mem hi')
      unfold fieldFits at this
      rw [g2.name, g2.boost]
      exact ⟨this.1, this.2, by omega⟩
  have h3 : headLen t = 3 := by
    unfold headLen
    rw [r1.defaults.1, r1.defaults.2.1, r1.defaults.2.2]
    cases ds <;> cases di <;> cases dv <;> decide
  obtain ⟨-, h1, h2⟩ := fisRead_spec t r1.wf hfit
  rw [h3] at h1 h2
  exact ⟨t, by rw [e0, Res.ok_bind, e1], h2, h1⟩

#print axioms c15_round_trip
#print axioms c15_refusals
#print axioms c15_truncated_partial
end Ferret.Props
