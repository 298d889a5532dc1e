import Verif.Lemmas.Readers

/-! C25: a multi-reader maps every document number to the segment that contains it, and back. -/

namespace Ferret.Props
open Ferret Ferret.BitVector Ferret.Spec Ferret.Rdr

/-- **C25.** With segments of any sizes, empty ones included, every document number below the total is mapped to the
segment that contains it and to its number there. -/
theorem c25_segment_of_document (sizes : List Nat) (d : Nat) (h : d < sizes.sum) :
    ∃ i o, whichSegment sizes d = some (i, o) ∧ locate (startsFrom 0 sizes) sizes.length d = .ok (i, (o : Int)) :=
  locate_spec sizes d h

/-- **C25, back.** Document `o` of segment `i`, whose number is `o` plus the sizes of the segments before it, is mapped
to exactly these. -/
theorem c25_document_of_segment (sizes : List Nat) (i o s : Nat) (hi : sizes[i]? = some s) (ho : o < s) :
    locate (startsFrom 0 sizes) sizes.length ((sizes.take i).sum + o : Nat) = .ok (i, (o : Int)) := by
  have hlt : (sizes.take i).sum + o < sizes.sum := by
    have h1 := sum_take_le sizes (show i + 1 ≤ sizes.length from (List.getElem?_eq_some_iff.1 hi).1)
    rw [take_succ_sum hi, List.take_length] at h1
    omega
  obtain ⟨i', o', g1, g2⟩ := locate_spec sizes _ hlt
  have := (whichSegment_iff sizes ((sizes.take i).sum + o) i o).2 ⟨s, hi, ho, rfl⟩
  rw [this] at g1
  cases g1
  exact g2

theorem flatten_locate {α : Type} : ∀ (docs : List (List α)) (d i o : Nat), whichSegment (docs.map (·.length)) d = some (i, o) →
    docs.flatten[d]? = docs[i]?.bind fun ds => ds[o]? := by
  intro docs
  induction docs with
  | nil => intro d i o h; simp [whichSegment] at h
  | cons ds docs ih =>
    intro d i o h
    rw [List.map_cons] at h
    unfold whichSegment at h
    rw [List.flatten_cons]
    by_cases hd : d < ds.length
    · rw [if_pos hd] at h
      cases h
      rw [List.getElem?_append_left hd]
      rfl
    · rw [if_neg hd] at h
      obtain ⟨⟨x, y⟩, h1, h2⟩ := Option.map_eq_some_iff.1 h
      cases h2
      rw [List.getElem?_append_right (by omega), ih _ _ _ h1]
      rfl

/-- **C25, `get_doc`.** Reading document `d` of a multi-reader is reading the `d`th of the documents of its segments one
after the other, unless it is deleted. -/
theorem c25_get_doc {α : Type} (docs : List (List α)) (subs : List SegR) (dead : Nat → Bool) (hsize : subs.map (·.size) = docs.map (·.length))
    (hdead : ∀ (i o : Nat) r, subs[i]? = some r → o < r.size → srIsDeleted r o = .ok (dead (((subs.take i).map (·.size)).sum + o)))
    (d : Nat) (x : α) (hx : docs.flatten[d]? = some x) :
    mrGetDoc (mrNew subs) docs d = if dead d then .raise .state else .ok x := by
  have hlen : subs.length = docs.length := by have := congrArg List.length hsize; simpa using this
  have hd : d < (docs.map (·.length)).sum := by
    have := (List.getElem?_eq_some_iff.1 hx).1
    rwa [List.length_flatten] at this
  obtain ⟨i, o, g1, g2⟩ := locate_spec (docs.map (·.length)) d hd
  have hfl := flatten_locate docs d i o g1
  obtain ⟨s, k1, k2, k3⟩ := (whichSegment_iff _ _ _ _).1 g1
  rw [hx] at hfl
  obtain ⟨ds, k4, rfl⟩ : ∃ ds, docs[i]? = some ds ∧ ds.length = s := by
    rw [List.getElem?_map] at k1
    exact Option.map_eq_some_iff.1 k1
  rw [k4, Option.bind_some] at hfl
  have hi : i < docs.length := (List.getElem?_eq_some_iff.1 k4).1
  obtain ⟨r, hr⟩ : ∃ r, subs[i]? = some r := ⟨_, List.getElem?_eq_getElem (by omega)⟩
  have hrs : r.size = ds.length := by
    have := congrArg (fun l => l[i]?) hsize
    simp only [List.getElem?_map, hr, k4, Option.map_some, Option.some.injEq] at this
    exact this
  unfold mrGetDoc mrNew
  dsimp only
  rw [hsize, hlen, show docs.length = (docs.map (·.length)).length by simp, g2, Res.ok_bind]
  dsimp only
  rw [hr, k4]
  dsimp only
  unfold srGetDoc
  rw [hdead i o r hr (by omega), List.map_take, hsize, ← k3, Res.ok_bind]
  by_cases hb : dead d = true
  · rw [if_pos hb, if_pos hb]
  · rw [if_neg hb, if_neg hb, if_neg (by omega), Int.toNat_natCast, ← hfl]
    rfl

/-- A case: four segments, the second and the last empty; document 3 is the first of the third segment. -/
example : (3 : Nat) < [3, 0, 2, 0].sum ∧ whichSegment [3, 0, 2, 0] 3 = some (2, 0) ∧ locate (startsFrom 0 [3, 0, 2, 0]) 4 3 = .ok (2, 0) := by decide

example : (fun segs : List (List Nat) => mrGetDoc (mrNew (segs.map fun l => ⟨l.length, none, false, false, false, -1⟩)) segs 4) [[5, 6, 7], [], [8, 9]] = .ok 9 := by
  decide +kernel

/-- A negative document number is undefined: it takes the element before the first of the array of readers. -/
theorem c25_negative_undefined (sizes : List Nat) (d : Int) (h : d < 0) : locate (startsFrom 0 sizes) sizes.length d = .ub := by
  obtain ⟨i, g1, g2, g3, g4, g5⟩ := readerIndex_spec sizes d
  have hi : i < 0 := by
    by_cases hn : 0 ≤ i
    · have := g2 0 (by omega) (by omega)
      simp only [List.take_zero, List.sum_nil] at this
      omega
    · omega
  unfold locate
  rw [g1, Res.ok_bind, if_pos hi]

/-- So is every document number if there is no segment: `get_doc(0)` or `deleted?(0)` on an empty index. -/
theorem c25_empty_index_undefined (d : Int) : mrIsDeleted (mrNew []) d = .ub := by
  obtain ⟨i, g1, g2, g3, g4, g5⟩ := readerIndex_spec [] d
  have hi : i < 0 := by simpa using g5
  unfold mrIsDeleted locate mrNew
  dsimp only
  rw [show ([] : List SegR).map (·.size) = [] from rfl, show ([] : List SegR).length = ([] : List Nat).length from rfl, g1, Res.ok_bind, if_pos hi]
  rfl

#print axioms c25_segment_of_document
#print axioms c25_document_of_segment
#print axioms c25_get_doc
#print axioms c25_negative_undefined
#print axioms c25_empty_index_undefined
end Ferret.Props
