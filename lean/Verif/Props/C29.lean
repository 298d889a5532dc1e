import Verif.Props.C28

/-!
C29 Optimize terminates with one segment.

Every index. Not so: merge_factor is not checked; with 1 neither optimizing nor committing ends, below 1 the segments before
the first are merged; a merge_factor with which (documents of a segment) · merge_factor is no `int` overflows.
-/

namespace Ferret.Props
open Ferret Ferret.Spec Ferret.Writer

variable {α : Type}

theorem optimized {w : W α} (h : toOptimize w = false) :
    w.segs.length ≤ 1 ∧ ∀ s ∈ w.segs, s.hasDel = false ∧ (w.cfg.compound = true → s.compound = true ∧ s.sepNorms = false) := by
  unfold toOptimize at h
  cases hs : w.segs with
  | nil => exact ⟨by simp, by simp⟩
  | cons s rest =>
    rw [hs] at h
    cases rest with
    | nil =>
      refine ⟨by simp, ?_⟩
      intro x hx
      rw [List.mem_singleton] at hx
      subst hx
      simp only [Bool.or_eq_false_iff] at h
      refine ⟨h.1, fun hc => ?_⟩
      have := h.2
      rw [hc] at this
      simpa using this
    | cons t r => simp at h

/-- Optimizing any index with any merge_factor of at least 2 ends; there is one segment at most, without deletions, in the form
the settings ask for; a reader sees the same documents. Missing: merge_factor below 2. -/
theorem c29_optimize_partial (D : Docs α) (c : Config) (hc : 2 ≤ c.mergeFactor) (fields : List (List Byte)) (disk : List (Seg α))
    (hf : ∀ s ∈ disk, s.files = true) (hd : FieldsIn D disk fields) :
    ∃ F w, (∀ n, F ≤ n → run D n (iwOpen c fields disk) [.optimize] = some (.ok w)) ∧ w.disk.length ≤ 1 ∧
      (∀ s ∈ w.disk, s.hasDel = false ∧ (c.compound = true → s.compound = true ∧ s.sepNorms = false)) ∧
      view w.disk = .ok (disk.flatMap Seg.live) := by
  have h0 : Closed D (iwOpen c fields disk) := ⟨rfl, hf, hd, hd⟩
  obtain ⟨w, r1, r2, r3, r4⟩ := optimizeLoop_ok disk.length (iwOpen c fields disk) h0 hc (by show disk.length ≤ _; omega)
  refine ⟨disk.length + 3, w, ?_, ?_, ?_, ?_⟩
  · intro n hn
    simp only [run, step, optimize, commit, iwOpen]
    have := r1 n (by omega)
    rw [iwOpen] at this
    rw [this]
  · rw [← r2.segs]
    exact (optimized r4).1
  · rw [← r2.segs]
    have := (optimized r4).2
    rw [r3.cfg] at this
    exact this
  · unfold view
    rw [if_pos (List.all_eq_true.2 r2.files), r3.live]
    rfl

/-- The same at the end of any history. The settings of `c28_commit_partial`. -/
theorem c29_history_partial (D : Docs α) (hD : D.Good) (K : Nat) (c : Config) (hc : GoodCfg K c) (fields : List (List Byte))
    (disk : List (Seg α)) (hf : ∀ s ∈ disk, s.files = true) (hd : FieldsIn D disk fields) (ops : List (Op α))
    (hg : GoodOps K c.maxBufferedDocs ops) (hN : ((total disk + adds ops : Nat) * K : Int) ≤ intMax) :
    ∃ F w, (∀ n, F ≤ n → run D n (iwOpen c fields disk) (ops ++ [.optimize]) = some (.ok w)) ∧ w.disk.length ≤ 1 ∧
      (∀ s ∈ w.disk, s.hasDel = false) ∧ view w.disk = .ok (contents D (disk.flatMap Seg.live) ops) := by
  have hg' : GoodOps K c.maxBufferedDocs (ops ++ [.optimize]) := by
    have : ∀ (ops : List (Op α)) (b : Int), GoodOps K b ops → GoodOps K b (ops ++ [.optimize]) := by
      intro ops
      induction ops with
      | nil => intro b _; simp [GoodOps]
      | cons op ops ih => intro b h; cases op <;> simp only [GoodOps, List.cons_append] at h ⊢ <;> grind
    exact this ops _ hg
  have h0 := iwOpen_ok hc hf hd
  obtain ⟨F, w, r1, r2, r3, _⟩ := run_ok hD hN ops (iwOpen c fields disk) (total disk) h0 hg (Nat.le_refl _)
  obtain ⟨F', w', q1, q2, _, _, _, q6, q7, q8⟩ := optimize_ok hN w r2
  have hs : w'.segs = w'.disk := (q2.closed q8).segs
  refine ⟨max F F', w', ?_, ?_, ?_, ?_⟩
  · intro n hn
    have : ∀ (ops : List (Op α)) (w0 w1 : W α), run D n w0 ops = some (.ok w1) → run D n w0 (ops ++ [.optimize]) = optimize n w1 := by
      intro ops
      induction ops with
      | nil =>
        intro w0 w1 h
        simp only [run, Option.some.injEq, Res.ok.injEq] at h
        subst h
        simp only [List.nil_append, run, step]
        cases optimize n w0 with
        | none => rfl
        | some r => cases r <;> rfl
      | cons op ops ih =>
        intro w0 w1 h
        simp only [run, List.cons_append] at h ⊢
        cases hs : step D n w0 op with
        | none => rw [hs] at h; simp at h
        | some r =>
          cases r with
          | ok w2 => rw [hs] at h; exact ih w2 w1 h
          | raise e => rw [hs] at h; simp at h
          | ub => rw [hs] at h; simp at h
    rw [this ops _ w (r1 n (by omega))]
    exact q1 n (by omega)
  · rw [← hs]
    exact (optimized q7).1
  · rw [← hs]
    exact fun s h => ((optimized q7).2 s h).1
  · rw [view_ok q2.toOk, q6, r3]
    show Res.ok (contents D (disk.flatMap Seg.live ++ []) ops) = _
    rw [List.append_nil]

/-- With merge_factor 1 optimizing an index of two segments or more never ends: the last segment is merged with itself again and
again. -/
theorem c29_hangs (D : Docs α) (c : Config) (hc : c.mergeFactor = 1) (fields : List (List Byte)) (disk : List (Seg α))
    (hf : ∀ s ∈ disk, s.files = true) (h2 : 2 ≤ disk.length) (n : Nat) :
    run D n (iwOpen c fields disk) [.optimize] = none := by
  have : ∀ (n : Nat) (w : W α), w.cfg.mergeFactor = 1 → (∀ s ∈ w.segs, s.files = true) → 2 ≤ w.segs.length → optimizeLoop n w = none := by
    intro n
    induction n with
    | zero => intros; rfl
    | succ n ih =>
      intro w hc hf h2
      have ht : toOptimize w = true := by
        unfold toOptimize
        match hs : w.segs, h2 with
        | _ :: _ :: _, _ => rfl
      unfold optimizeLoop
      simp only [ht, if_true, hc]
      rw [if_neg (by omega)]
      unfold mergeFrom
      rw [if_neg (by omega)]
      have hall : (w.segs.drop ((w.segs.length : Int) - 1).toNat).all (·.files) = true := by
        rw [List.all_eq_true]
        exact fun s hs => hf s (List.mem_of_mem_drop hs)
      simp only [hall, if_true]
      refine ih _ hc ?_ ?_
      · intro s hs
        rcases List.mem_append.1 hs with hs | hs
        · exact hf s (List.mem_of_mem_take hs)
        · rw [List.mem_singleton] at hs
          subst hs
          rfl
      · show 2 ≤ (w.segs.take ((w.segs.length : Int) - 1).toNat ++ [_]).length
        rw [List.length_append, List.length_take, List.length_singleton]
        omega
  have h := this n (iwOpen c fields disk) hc hf h2
  simp only [run, step, optimize, commit, iwOpen] at h ⊢
  rw [h]

theorem scan_last {t : Int} {w : W α} {init : List (Seg α)} {s : Seg α} (h : w.segs = init ++ [s]) (ht : t ≤ s.cnt) :
    scan t w.segs.reverse 0 = ((init.length : Int), 0) := by
  rw [h, List.reverse_append]
  simp only [List.reverse_cons, List.reverse_nil, List.nil_append, List.singleton_append, scan]
  rw [if_pos ht, List.length_reverse]

/-- With merge_factor 1 adding a document to an index that is not empty never ends, if there is no more memory for it. -/
theorem c29_commit_hangs (D : Docs α) (c : Config) (hc : c.mergeFactor = 1) (hb : 1 ≤ c.maxBufferedDocs) (hm : 1 ≤ c.maxMergeDocs)
    (fields : List (List Byte)) (disk : List (Seg α)) (h1 : disk ≠ []) (d : α) (n : Nat) :
    run D n (iwOpen c fields disk) [.add d true] = none := by
  have key : ∀ (n : Nat) (w : W α) (s : Seg α), w.cfg = c → w.segs = disk ++ [s] → 1 ≤ s.cnt → maybeLoop n w 1 = none := by
    intro n
    induction n with
    | zero => intros; rfl
    | succ n ih =>
      intro w s hw hs h1s
      have hl : 0 < disk.length := List.length_pos_iff.2 h1
      unfold maybeLoop
      rw [if_pos (by rw [hw]; omega), scan_last hs (by omega)]
      simp only [hw, hc]
      rw [if_neg (by omega), if_neg (by omega), if_neg (by decide)]
      exact ih w s hw hs h1s
  have hn : ¬ (D.normed d = true ∧ ¬ ((0 : Int) < c.maxBufferedDocs)) := by omega
  simp only [run, step, addDoc, openSeg, iwOpen, List.length_nil, Int.natCast_zero]
  rw [if_neg hn]
  simp only [true_or, if_true]
  unfold flush
  simp only [List.getLast?_append, List.getLast?_singleton, Option.some_or, List.nil_append, List.map_cons, List.map_nil]
  have : maybeMerge n (sisWrite (⟨c, fields ++ D.fields d, (disk ++ [newSeg]).dropLast ++ [⟨[(d, false)], false, c.compound, false, true⟩],
      some ⟨false, [], c.maxBufferedDocs⟩, disk, fields⟩ : W α)) = none := by
    unfold maybeMerge
    show maybeLoop n _ c.mergeFactor = none
    rw [hc]
    refine key n _ ⟨[(d, false)], false, c.compound, false, true⟩ rfl ?_ (Nat.le_refl 1)
    show (disk ++ [newSeg]).dropLast ++ _ = _
    rw [List.dropLast_concat]
  rw [this]

/-- merge_factor · merge_factor is no `int`: committing merge_factor documents or more to an index that is not empty
overflows. -/
theorem c29_overflow_ub (D : Docs α) (c : Config) (h0 : 1 ≤ c.mergeFactor) (hc : intMax < c.mergeFactor * c.mergeFactor)
    (hm : c.mergeFactor ≤ c.maxMergeDocs) (fields : List (List Byte)) (disk : List (Seg α)) (h1 : disk ≠ [])
    (docs : List α) (hd : c.mergeFactor ≤ docs.length) (hb : docs.length < c.maxBufferedDocs) (n : Nat) :
    run D (n + 1) (iwOpen c fields disk) (docs.map (fun d => .add d false) ++ [.commit]) = some .ub := by
  have key : ∀ (rest done : List α) (fs : List (List Byte)), done ++ rest = docs →
      run D (n + 1) ⟨c, fs, disk ++ [newSeg], some ⟨true, done, c.maxBufferedDocs⟩, disk, fields⟩
        (rest.map (fun d => .add d false) ++ [.commit]) = some .ub := by
    intro rest
    induction rest with
    | nil =>
      intro done fs hdone
      rw [List.append_nil] at hdone
      subst hdone
      have hl : 0 < disk.length := List.length_pos_iff.2 h1
      simp only [List.map_nil, List.nil_append, run, step, commit]
      rw [if_pos (by omega)]
      unfold flush
      simp only [List.getLast?_append, List.getLast?_singleton, Option.some_or, List.dropLast_concat]
      have : maybeMerge (n + 1) (sisWrite (⟨c, fs, disk ++ [⟨done.map fun d => (d, false), false, c.compound, false, true⟩],
          some ⟨false, [], c.maxBufferedDocs⟩, disk, fields⟩ : W α)) = some .ub := by
        have : ∀ w : W α, w.cfg = c → w.segs = disk ++ [⟨done.map fun d => (d, false), false, c.compound, false, true⟩] →
            maybeMerge (n + 1) w = some .ub := by
          intro w hw hs
          unfold maybeMerge maybeLoop
          rw [hw, if_pos ⟨by omega, hm⟩, scan_last hs (by unfold Seg.cnt; rw [List.length_map]; exact hd)]
          simp only [hw]
          rw [if_neg (by omega), if_neg (by omega), if_pos hc]
        exact this _ rfl rfl
      rw [this]
    | cons d rest ih =>
      intro done fs hdone
      have hlen : done.length + (rest.length + 1) = docs.length := by rw [← hdone]; simp
      simp only [List.map_cons, List.cons_append, run, step, addDoc, openSeg, if_true]
      rw [if_neg (by omega)]
      simp only [List.length_append, List.length_singleton]
      rw [if_neg (by simp; omega)]
      exact ih (done ++ [d]) _ (by rw [← hdone]; simp)
  cases docs with
  | nil => simp at hd; omega
  | cons d rest =>
    have hlen : rest.length + 1 = (d :: rest).length := rfl
    have hadd : addDoc D (n + 1) (iwOpen c fields disk) d false = some (.ok ⟨c, fields ++ D.fields d, disk ++ [newSeg],
        some ⟨true, [d], c.maxBufferedDocs⟩, disk, fields⟩) := by
      unfold addDoc
      dsimp only
      rw [if_neg (by show ¬ (_ ∧ ¬ ((0 : Int) < c.maxBufferedDocs)); omega),
        if_neg (by show ¬ (_ ∨ ((1 : Int) ≥ c.maxBufferedDocs)); simp only [Bool.false_eq_true, false_or]; omega)]
      rfl
    simp only [List.map_cons, List.cons_append, run, step]
    rw [hadd]
    exact key rest [d] _ rfl

/-- With merge_factor 0 or less optimizing two segments or more looks for a segment after the last. -/
theorem c29_zero_ub (D : Docs α) (c : Config) (hc : c.mergeFactor ≤ 0) (fields : List (List Byte)) (disk : List (Seg α))
    (h2 : 2 ≤ disk.length) (n : Nat) : run D (n + 1) (iwOpen c fields disk) [.optimize] = some .ub := by
  have ht : toOptimize (iwOpen c fields disk) = true := by
    unfold toOptimize iwOpen
    match disk, h2 with
    | _ :: _ :: _, _ => rfl
  have : mergeFrom (iwOpen c fields disk) ((disk.length : Int) - c.mergeFactor) = .ub := by
    unfold mergeFrom
    rw [if_pos]
    right
    show (disk.length : Int) - _ ≤ 0
    omega
  simp only [run, step, optimize, commit, iwOpen, optimizeLoop] at ht this ⊢
  simp only [ht, if_true]
  rw [if_neg (by omega), this]

/-- Three segments, one with a deletion. -/
def three : List (Seg Nat) := [⟨[(1, false), (2, true)], true, true, false, true⟩, ⟨[(3, false)], false, false, false, true⟩,
  ⟨[(4, false), (6, false)], false, true, true, true⟩]

example : ∃ F w, (∀ n, F ≤ n → run numDocs n (iwOpen ⟨2, 10, intMax, true⟩ [[102]] three) [.optimize] = some (.ok w)) ∧ w.disk.length ≤ 1 ∧
    (∀ s ∈ w.disk, s.hasDel = false ∧ (true = true → s.compound = true ∧ s.sepNorms = false)) ∧ view w.disk = .ok [1, 3, 4, 6] :=
  c29_optimize_partial numDocs ⟨2, 10, intMax, true⟩ (by decide) [[102]] three (by decide)
    (by intro s hs d hd f hf; simpa [numDocs] using hf)

example (n : Nat) : run numDocs n (iwOpen ⟨1, 10, intMax, true⟩ [[102]] three) [.optimize] = none :=
  c29_hangs numDocs ⟨1, 10, intMax, true⟩ rfl [[102]] three (by decide) (by decide) n

example (n : Nat) : run numDocs n (iwOpen ⟨1, 10, intMax, true⟩ [[102]] three) [.add 7 true] = none :=
  c29_commit_hangs numDocs ⟨1, 10, intMax, true⟩ rfl (by decide) (by decide) [[102]] three (by decide) 7 n

example (n : Nat) : run numDocs (n + 1) (iwOpen ⟨50000, 60000, intMax, true⟩ [[102]] three)
    ((List.range 50000).map (fun d => .add d false) ++ [.commit]) = some .ub :=
  c29_overflow_ub numDocs ⟨50000, 60000, intMax, true⟩ (by decide) (by decide) (by decide) [[102]] three (by decide)
    (List.range 50000) (by rw [List.length_range]; decide) (by rw [List.length_range]; decide) n

#print axioms c29_optimize_partial
#print axioms c29_history_partial
#print axioms c29_hangs
#print axioms c29_commit_hangs
#print axioms c29_zero_ub
#print axioms c29_overflow_ub
end Ferret.Props
