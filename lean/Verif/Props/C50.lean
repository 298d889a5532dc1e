import Verif.Props.C29

/-!
C50 Adding readers keeps deletions deleted.

Every index and every other index. Not so: the documents deleted in the other index are there again.
-/

namespace Ferret.Props
open Ferret Ferret.Spec Ferret.Writer

variable {α : Type}

theorem addSegments_segs (D : Docs α) : ∀ (other : List (Seg α)) (w : W α), ∃ fs, other.foldl (addSegment D) w =
    { w with segs := w.segs ++ other.map (fun s => ⟨s.docs.map (fun d => (d.1, false)), false, false, false, true⟩),
             fields := w.fields ++ fs } ∧ FieldsIn D other fs := by
  intro other
  induction other with
  | nil => intro w; exact ⟨[], by simp, by intro s hs; simp at hs⟩
  | cons s rest ih =>
    intro w
    obtain ⟨fs, h1, h2⟩ := ih (addSegment D w s)
    refine ⟨(s.docs.flatMap fun d => D.fields d.1) ++ fs, ?_, ?_⟩
    · rw [List.foldl_cons, h1]
      simp [addSegment]
    · intro t ht x hx f hf
      rcases List.mem_cons.1 ht with rfl | ht
      · exact List.mem_append.2 (Or.inl (List.mem_flatMap.2 ⟨x, hx, hf⟩))
      · exact List.mem_append.2 (Or.inr (h2 t ht x hx f hf))

theorem flatMap_same {β : Type} {f g : β → List α} {l : List β} (h : ∀ x ∈ l, f x = g x) : l.flatMap f = l.flatMap g := by
  rw [List.flatMap_def, List.flatMap_def, List.map_congr_left h]

theorem live_copy (l : List (α × Bool)) (a b c d : Bool) : (Seg.mk (l.map fun d => (d.1, false)) a b c d).live = l.map (·.1) := by
  rw [show (l.map fun d => (d.1, false)) = ((l.map (·.1)).map fun d => (d, false)) by rw [List.map_map]; rfl]
  exact live_fresh _ a b c d

/-- What iw_add_readers does for every index, every other index and every merge_factor of at least 2: it ends, with one segment at
most, and a reader then sees the documents of the index and after them all documents of the other, deleted or not. -/
theorem c50_all (D : Docs α) (c : Config) (hc : 2 ≤ c.mergeFactor) (fields : List (List Byte)) (disk other : List (Seg α))
    (hf : ∀ s ∈ disk, s.files = true) (hd : FieldsIn D disk fields) :
    ∃ F w, (∀ n, F ≤ n → addReaders D n (iwOpen c fields disk) other = some (.ok w)) ∧ w.disk.length ≤ 1 ∧
      view w.disk = .ok (disk.flatMap Seg.live ++ other.flatMap fun s => s.docs.map (·.1)) := by
  have h0 : Closed D (iwOpen c fields disk) := ⟨rfl, hf, hd, hd⟩
  obtain ⟨w, r1, r2, r3, _⟩ := optimizeLoop_ok disk.length (iwOpen c fields disk) h0 hc (by show disk.length ≤ _; omega)
  obtain ⟨fs, e1, e2⟩ := addSegments_segs D other w
  have hk : Closed D (sisWrite (other.foldl (addSegment D) w)) := by
    rw [e1]
    have hfi : FieldsIn D (w.segs ++ other.map (fun s => (⟨s.docs.map (fun d => (d.1, false)), false, false, false, true⟩ : Seg α)))
        (w.fields ++ fs) := by
      intro s hs x hx f hf
      rcases List.mem_append.1 hs with hs | hs
      · exact List.mem_append.2 (Or.inl (r2.fields s (r2.segs ▸ hs) x hx f hf))
      · obtain ⟨t, ht, rfl⟩ := List.mem_map.1 hs
        obtain ⟨y, hy, rfl⟩ := List.mem_map.1 hx
        exact List.mem_append.2 (Or.inr (e2 t ht y hy f hf))
    refine ⟨rfl, ?_, hfi, hfi⟩
    intro s hs
    rcases List.mem_append.1 (show s ∈ w.segs ++ _ from hs) with hs | hs
    · exact r2.files s (r2.segs ▸ hs)
    · obtain ⟨t, ht, rfl⟩ := List.mem_map.1 hs
      rfl
  have hcfg : (sisWrite (other.foldl (addSegment D) w)).cfg = c := by
    rw [e1]
    exact r3.cfg
  have hdw : (sisWrite (other.foldl (addSegment D) w)).dw = none := by
    rw [e1]
    exact r3.dw
  obtain ⟨w', q1, q2, q3, q4⟩ := optimizeLoop_ok (sisWrite (other.foldl (addSegment D) w)).segs.length _ hk (by rw [hcfg]; exact hc) (by omega)
  refine ⟨disk.length + (sisWrite (other.foldl (addSegment D) w)).segs.length + 3, w', ?_, ?_, ?_⟩
  · intro n hn
    have ho : optimize n (iwOpen c fields disk) = some (.ok w) := by
      unfold optimize commit
      exact r1 n (by omega)
    unfold addReaders
    rw [ho]
    show optimize n _ = _
    unfold optimize commit
    rw [hdw]
    exact q1 n (by omega)
  · rw [← q2.segs]
    exact (optimized q4).1
  · unfold view
    rw [if_pos (List.all_eq_true.2 q2.files), q3.live]
    rw [e1]
    show Res.ok ((w.segs ++ _).flatMap Seg.live) = _
    rw [List.flatMap_append, r2.segs, r3.live, List.flatMap_map]
    congr 2
    refine flatMap_same ?_
    intro s _
    exact live_copy s.docs _ _ _ _

/-- If nothing is deleted in the other index, exactly its documents are added. Missing: deletions. -/
theorem c50_add_partial (D : Docs α) (c : Config) (hc : 2 ≤ c.mergeFactor) (fields : List (List Byte)) (disk other : List (Seg α))
    (hf : ∀ s ∈ disk, s.files = true) (hd : FieldsIn D disk fields) (ho : ∀ s ∈ other, ∀ x ∈ s.docs, x.2 = false) :
    ∃ F w, (∀ n, F ≤ n → addReaders D n (iwOpen c fields disk) other = some (.ok w)) ∧
      view w.disk = .ok (disk.flatMap Seg.live ++ other.flatMap Seg.live) := by
  obtain ⟨F, w, h1, _, h2⟩ := c50_all D c hc fields disk other hf hd
  refine ⟨F, w, h1, ?_⟩
  rw [h2]
  congr 2
  refine flatMap_same ?_
  intro s hs
  unfold Seg.live
  rw [List.filter_eq_self.2 (fun x hx => by simp [ho s hs x hx])]

/-- If anything is deleted in the other index, a reader sees more documents than are in the two. -/
theorem c50_deleted (D : Docs α) (c : Config) (hc : 2 ≤ c.mergeFactor) (fields : List (List Byte)) (disk other : List (Seg α))
    (hf : ∀ s ∈ disk, s.files = true) (hd : FieldsIn D disk fields) (ho : ∃ s ∈ other, ∃ x ∈ s.docs, x.2 = true) :
    ∃ F w docs, (∀ n, F ≤ n → addReaders D n (iwOpen c fields disk) other = some (.ok w)) ∧ view w.disk = .ok docs ∧
      (disk.flatMap Seg.live ++ other.flatMap Seg.live).length < docs.length := by
  obtain ⟨F, w, h1, _, h2⟩ := c50_all D c hc fields disk other hf hd
  refine ⟨F, w, _, h1, h2, ?_⟩
  rw [List.length_append, List.length_append]
  have : ∀ other : List (Seg α), (other.flatMap Seg.live).length ≤ (other.flatMap fun s => s.docs.map (·.1)).length ∧
      ((∃ s ∈ other, ∃ x ∈ s.docs, x.2 = true) → (other.flatMap Seg.live).length < (other.flatMap fun s => s.docs.map (·.1)).length) := by
    intro other
    induction other with
    | nil => simp
    | cons s rest ih =>
      have hle : s.live.length ≤ (s.docs.map (·.1)).length := by
        unfold Seg.live
        rw [List.length_map, List.length_map]
        exact List.length_filter_le _ _
      rw [List.flatMap_cons, List.flatMap_cons, List.length_append, List.length_append]
      refine ⟨by omega, ?_⟩
      rintro ⟨t, ht, x, hx, hd⟩
      rcases List.mem_cons.1 ht with rfl | ht
      · have : t.live.length < (t.docs.map (·.1)).length := by
          unfold Seg.live
          rw [List.length_map, List.length_map]
          exact List.length_filter_lt_length_iff_exists.2 ⟨x, hx, by simp [hd]⟩
        omega
      · have := ih.2 ⟨t, ht, x, hx, hd⟩
        omega
  have := (this other).2 ho
  omega

example : ∃ F w, (∀ n, F ≤ n → addReaders numDocs n (iwOpen (set10 5) [[102]] [⟨[(7, false), (8, true)], true, true, false, true⟩]) three = some (.ok w)) ∧
    w.disk.length ≤ 1 ∧ view w.disk = .ok [7, 1, 2, 3, 4, 6] :=
  c50_all numDocs (set10 5) (by decide) [[102]] _ three (by decide) (by intro s hs d hd f hf; simpa [numDocs] using hf)

#print axioms c50_add_partial
#print axioms c50_all
#print axioms c50_deleted
end Ferret.Props
