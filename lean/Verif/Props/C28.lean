import Verif.Lemmas.Writer

/-!
C28 Index writer history semantics.

Every history of adding, deleting, committing, optimizing, changing settings and reopening. Not so: max_buffered_docs below 1
or raised while the writer is open writes norms outside their array; an exception from opening a segment's files leaves a
segment without files in the index.
-/

namespace Ferret.Props
open Ferret Ferret.Spec Ferret.Writer

variable {α : Type}

/-- After any history and a commit a new reader sees exactly the documents that were there or were added and that no later
call deleted, in order. Settings: merge_factor from 2 to `K`, max_buffered_docs at least 1 and not raised while the writer is
open; (number of documents) · K is an `int`. Missing: other settings, exceptions. -/
theorem c28_commit_partial (D : Docs α) (hD : D.Good) (K : Nat) (c : Config) (hc : GoodCfg K c) (fields : List (List Byte))
    (disk : List (Seg α)) (hf : ∀ s ∈ disk, s.files = true) (hd : FieldsIn D disk fields) (ops : List (Op α))
    (hg : GoodOps K c.maxBufferedDocs ops) (hN : ((total disk + adds ops : Nat) * K : Int) ≤ intMax) :
    ∃ F w, (∀ n, F ≤ n → run D n (iwOpen c fields disk) (ops ++ [.commit]) = some (.ok w)) ∧
      view w.disk = .ok (contents D (disk.flatMap Seg.live) ops) := by
  have h0 := iwOpen_ok hc hf hd
  obtain ⟨F, w, r1, r2, r3, _⟩ := run_ok hD hN ops (iwOpen c fields disk) (total disk) h0 hg (Nat.le_refl _)
  obtain ⟨w', q1, q2, _, _, _, q6, _⟩ := commit_ok' hN w r2
  refine ⟨max F 32, w', ?_, ?_⟩
  · intro n hn
    have : ∀ (ops : List (Op α)) (w0 w1 : W α), run D n w0 ops = some (.ok w1) → run D n w0 (ops ++ [.commit]) = commit n w1 := by
      intro ops
      induction ops with
      | nil =>
        intro w0 w1 h
        simp only [run, Option.some.injEq, Res.ok.injEq] at h
        subst h
        simp only [List.nil_append, run, step]
        cases commit n w0 with
        | none => rfl
        | some r => cases r <;> rfl
      | cons op ops ih =>
        intro w0 w1 h
        simp only [run, List.cons_append] at h ⊢
        cases hs : step D n w0 op with
        | none => rw [hs] at h; simp at h
        | some r =>
          cases r with
          | ok w2 => rw [hs] at h; exact ih w2 w1 h
          | raise e => rw [hs] at h; simp at h
          | ub => rw [hs] at h; simp at h
    rw [this ops _ w (r1 n (by omega))]
    exact q1 n (by omega)
  · rw [view_ok q2.toOk, q6, r3]
    show Res.ok (contents D (disk.flatMap Seg.live ++ []) ops) = _
    rw [List.append_nil]

/-- At any time a new reader sees the documents as they were after some part of the history, from its beginning. The same
settings. -/
theorem c28_anytime_partial (D : Docs α) (hD : D.Good) (K : Nat) (c : Config) (hc : GoodCfg K c) (fields : List (List Byte))
    (disk : List (Seg α)) (hf : ∀ s ∈ disk, s.files = true) (hd : FieldsIn D disk fields) (ops : List (Op α))
    (hg : GoodOps K c.maxBufferedDocs ops) (hN : ((total disk + adds ops : Nat) * K : Int) ≤ intMax) :
    ∃ F w pre, (∀ n, F ≤ n → run D n (iwOpen c fields disk) ops = some (.ok w)) ∧ pre <+: ops ∧
      view w.disk = .ok (contents D (disk.flatMap Seg.live) pre) := by
  have h0 := iwOpen_ok hc hf hd
  obtain ⟨F, w, r1, r2, _, r4⟩ := run_ok hD hN ops (iwOpen c fields disk) (total disk) h0 hg (Nat.le_refl _)
  have e : all (iwOpen c fields disk) = disk.flatMap Seg.live := by
    show disk.flatMap Seg.live ++ [] = _
    rw [List.append_nil]
  rcases r4 with r4 | ⟨pre, hp, r4⟩
  · exact ⟨F, w, [], r1, List.nil_prefix, by rw [view_ok r2.toOk, r4]; rfl⟩
  · exact ⟨F, w, pre, r1, hp, by rw [view_ok r2.toOk, r4, e]⟩

/-- The result depends on what is added and deleted only: not on settings, commits, optimizing, reopening or when memory was
full. -/
theorem c28_settings_partial (D : Docs α) (hD : D.Good) (K K' : Nat) (c c' : Config) (hc : GoodCfg K c) (hc' : GoodCfg K' c')
    (fields : List (List Byte)) (disk : List (Seg α)) (hf : ∀ s ∈ disk, s.files = true) (hd : FieldsIn D disk fields)
    (ops ops' : List (Op α)) (hg : GoodOps K c.maxBufferedDocs ops) (hg' : GoodOps K' c'.maxBufferedDocs ops')
    (hN : ((total disk + adds ops : Nat) * K : Int) ≤ intMax) (hN' : ((total disk + adds ops' : Nat) * K' : Int) ≤ intMax)
    (h : changes ops = changes ops') :
    ∃ F w w', (∀ n, F ≤ n → run D n (iwOpen c fields disk) (ops ++ [.commit]) = some (.ok w) ∧
      run D n (iwOpen c' fields disk) (ops' ++ [.commit]) = some (.ok w')) ∧ view w.disk = view w'.disk := by
  have hch : ∀ (ops : List (Op α)) (docs : List α), contents D docs ops = contents D docs (changes ops) := by
    intro ops
    induction ops with
    | nil => intro docs; rfl
    | cons op ops ih => intro docs; cases op <;> simp only [contents, changes, ih]
  obtain ⟨F, w, r1, r2⟩ := c28_commit_partial D hD K c hc fields disk hf hd ops hg hN
  obtain ⟨F', w', q1, q2⟩ := c28_commit_partial D hD K' c' hc' fields disk hf hd ops' hg' hN'
  refine ⟨max F F', w, w', fun n hn => ⟨r1 n (by omega), q1 n (by omega)⟩, ?_⟩
  rw [r2, q2, hch ops, hch ops', h]

/-- With max_buffered_docs below 1 the norm of the first document is written outside its array. -/
theorem c28_zero_buffer_ub (D : Docs α) (n : Nat) (c : Config) (fields : List (List Byte)) (disk : List (Seg α)) (d : α) (full : Bool)
    (hn : D.normed d = true) (hb : c.maxBufferedDocs ≤ 0) : run D n (iwOpen c fields disk) [.add d full] = some .ub := by
  have : ¬ ((0 : Int) < c.maxBufferedDocs) := by omega
  simp [run, step, addDoc, openSeg, iwOpen, hn, this]

/-- Documents of the examples: numbers; an odd one has the term "a" in the field "f". -/
def numDocs : Docs Nat := ⟨fun f t d => f == [102] && t == [97] && d % 2 == 1, fun _ => [[102]], fun _ => true⟩

/-- The settings of the examples. -/
def set10 (buffered : Int) : Config := ⟨10, buffered, intMax, true⟩

/-- Raising max_buffered_docs while the writer is open: the norm of the third document is written outside the array. -/
theorem c28_raise_buffer_ub :
    run numDocs 40 (iwOpen (set10 2) [] []) [.add 1 false, .set (set10 100), .add 2 false, .add 3 false] = some .ub := by
  rfl

/-- What of a result the witnesses look at. -/
def outcome {β : Type} (f : W Nat → β) : Option (Res (W Nat)) → Option β
  | some (.ok w) => some (f w)
  | _ => none

/-- The files of the first segment cannot be opened; the next document is added and committed: no reader can be opened any
more. -/
theorem c28_open_fails :
    outcome (fun w => view w.disk) (run numDocs 40 (iwOpen (set10 100) [] []) [.openFails 1, .add 1 false, .commit]) =
      some (.raise .fileNotFound) := by
  decide +kernel

/-- iw_doc_count counts deleted documents, too, after a commit. -/
theorem c28_doc_count :
    outcome docCount (run numDocs 40 (iwOpen (set10 100) [] []) [.add 1 false, .add 2 false, .delete [102] [97], .commit]) = some 2 ∧
    contents numDocs [] [.add 1 false, .add 2 false, .delete [102] [97], .commit] = [2] := by
  decide +kernel

/-- iw_doc_count is never less than the number of documents. -/
theorem c28_doc_count_partial (D : Docs α) (hD : D.Good) (K : Nat) (c : Config) (hc : GoodCfg K c) (fields : List (List Byte))
    (disk : List (Seg α)) (hf : ∀ s ∈ disk, s.files = true) (hd : FieldsIn D disk fields) (ops : List (Op α))
    (hg : GoodOps K c.maxBufferedDocs ops) (hN : ((total disk + adds ops : Nat) * K : Int) ≤ intMax) :
    ∃ F w, (∀ n, F ≤ n → run D n (iwOpen c fields disk) ops = some (.ok w)) ∧
      (contents D (disk.flatMap Seg.live) ops).length ≤ docCount w := by
  have h0 := iwOpen_ok hc hf hd
  obtain ⟨F, w, r1, r2, r3, _⟩ := run_ok hD hN ops (iwOpen c fields disk) (total disk) h0 hg (Nat.le_refl _)
  refine ⟨F, w, r1, ?_⟩
  have e : all (iwOpen c fields disk) = disk.flatMap Seg.live := by
    show disk.flatMap Seg.live ++ [] = _
    rw [List.append_nil]
  rw [← e, ← r3]
  unfold all docCount
  rw [r2.segs]
  have h1 := live_total w.disk
  have h2 : total w.disk ≤ ((w.disk ++ if dwOpen w then [newSeg] else []).map Seg.cnt).sum := by
    unfold total
    rw [List.map_append, List.sum_append]
    omega
  rw [List.length_append]
  unfold buf
  cases w.dw with
  | none => simp only [List.length_nil]; omega
  | some dw => simp only; omega

example : ∃ F w, (∀ n, F ≤ n → run numDocs n (iwOpen (set10 2) [] []) ([.add 1 false, .add 2 true, .add 3 false, .delete [102] [97], .add 5 false,
      .set (set10 1), .optimize, .add 4 false] ++ [.commit]) = some (.ok w)) ∧ view w.disk = .ok [2, 5, 4] :=
  c28_commit_partial numDocs (by intro f t d h; simp [numDocs] at h ⊢; exact h.1.1) 10 (set10 2) ⟨by decide, by decide, by decide, by decide⟩ [] []
    (by simp) (by intro s hs; simp at hs) _ (by simp [GoodOps, GoodCfg, set10, intMax]) (by decide)

#print axioms c28_commit_partial
#print axioms c28_anytime_partial
#print axioms c28_settings_partial
#print axioms c28_doc_count_partial
#print axioms c28_zero_buffer_ub
#print axioms c28_raise_buffer_ub
#print axioms c28_open_fails
#print axioms c28_doc_count
end Ferret.Props
