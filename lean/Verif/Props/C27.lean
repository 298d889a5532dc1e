import Verif.Lemmas.MergeLoop
import Verif.Lemmas.MergeFields
import Verif.Lemmas.MergeBuf
import Verif.Props.C19

/-! C27: merging segments keeps exactly the documents that are not deleted: their terms, frequencies and positions, their stored
fields and their norms. -/

namespace Ferret.Props
open Ferret Ferret.Expand Ferret.Dict Ferret.Post Ferret.Spec Ferret.Merge

/-! ### What is merged -/

/-- A segment: the intervals and the terms it was written with, its number of documents and which of them are deleted. -/
structure Source where
  ii : Nat
  si : Nat
  fields : List (Nat × List (Term × List Posting))
  size : Nat
  dead : Nat → Bool

/-- The files of a segment are those that were written for it. -/
structure Source.Files (s : Source) (x : Input) : Prop where
  seg : Segment s.ii s.si s.fields
  siPos : 0 < s.si
  docs : ∀ f ∈ s.fields, ∀ y ∈ f.2, ∀ p ∈ y.2, p.doc < s.size
  flushed : flush s.ii s.si s.fields = .ok x.files
  tisLen : x.files.dict.tis.length < 2 ^ 64
  tixLen : x.files.dict.tix.length < 2 ^ 64
  fdx : x.fdx.length = 12 * s.size
  del : Deletes x.del s.dead

/-- Those of the documents of a term that are not deleted, numbered through from `base` on, one segment after the other. -/
def mergedPostings : Nat → List Source → Int → Term → List Posting
  | _, [], _, _ => []
  | base, s :: ss, f, t =>
    ((((postingsOf s.fields f t).getD []).filter fun p => !s.dead p.doc).map fun p => { p with doc := base + liveBefore s.dead p.doc }) ++
      mergedPostings (base + liveBefore s.dead s.size) ss f t

/-- The number of documents that are not deleted. -/
def liveDocs (ss : List Source) : Nat := (ss.map fun s => liveBefore s.dead s.size).sum

/-- The merged segment is not too large: documents, occurrences of each term, terms of each field, and all together. -/
structure Fit (ss : List Source) : Prop where
  docs : liveDocs ss < 2 ^ 27
  occs : ∀ f t, ((mergedPostings 0 ss f t).map fun p => p.occ.length).sum < 2 ^ 28
  terms : (ss.map fun s => (s.fields.map fun x => x.2.length).sum).sum < 2 ^ 31
  total : (ss.map fun s => (s.fields.map fun x => (x.2.map fun y => y.2.length).sum).sum).sum < 2 ^ 56
  totalOccs : (ss.map fun s => (s.fields.map fun x => (x.2.map fun y => (y.2.map fun p => p.occ.length).sum).sum).sum).sum < 2 ^ 56

/-! ### The segments are opened -/

theorem docMapLoop_spec {bv : BitVector.BV} {dead : Nat → Bool} (h : Deletes (some bv) dead) : ∀ (n i j : Nat), j = liveBefore dead i →
    ∃ m, docMapLoop bv n i j = .ok (m, liveBefore dead (i + n)) ∧
      ∀ k, k < n → m[k]? = some (if dead (i + k) then -1 else ((liveBefore dead (i + k) : Nat) : Int)) := by
  intro n
  induction n with
  | zero => intro i j hj; exact ⟨[], by rw [hj]; rfl, fun k hk => by omega⟩
  | succ n ih =>
    intro i j hj
    have h1 : BitVector.get bv (i : Int) = .ok (dead i) := h i
    unfold docMapLoop
    rw [h1, Res.ok_bind]
    obtain ⟨m, e1, e2⟩ := ih (i + 1) (if dead i then j else j + 1) (by rw [liveBefore_succ, hj]; split <;> simp)
    rw [e1, Res.ok_bind]
    refine ⟨_, by rw [show i + (n + 1) = i + 1 + n by omega], fun k hk => ?_⟩
    cases k with
    | zero => rw [List.getElem?_cons_zero, Nat.add_zero, hj]
    | succ k => rw [List.getElem?_cons_succ, e2 k (by omega), show i + (k + 1) = i + 1 + k by omega]

theorem liveBefore_none {dead : Nat → Bool} (h : Deletes none dead) (n : Nat) : liveBefore dead n = n := by
  unfold liveBefore
  rw [List.filter_eq_self.2]
  · exact List.length_range
  · intro i _
    have : Res.ok false = Res.ok (dead i) := h i
    simp only [Res.ok.injEq] at this
    rw [← this]
    rfl

/-- A segment and its files. -/
theorem smiNew_spec {s : Source} {x : Input} (h : s.Files x) (base : Nat) :
    ∃ smi, smiNew base x = .ok smi ∧ smi.base = base ∧ smi.maxDoc = s.size ∧ smi.docCnt = liveBefore s.dead s.size ∧ Src.OK ⟨smi, s.fields, s.dead⟩ ∧
      smi.del = x.del ∧ smi.fdx = x.fdx ∧ smi.fdt = x.fdt := by
  have hw := flushed_dict h.seg h.siPos
  obtain ⟨d, e1, h1⟩ := dict_spec s.ii s.si _ hw.fit
  have hfl := h.flushed
  unfold flush at hfl
  rw [if_neg (by have := h.siPos; omega)] at hfl
  dsimp only at hfl
  rw [e1, Res.ok_bind, Res.ok.injEq] at hfl
  have hdx : x.files.dict = d := by rw [← hfl]
  obtain ⟨sfi, e2, hsfi, -, hd⟩ := h1 (by rw [← hdx]; exact h.tisLen) (by rw [← hdx]; exact h.tixLen)
  have hdict : DictOK sfi d.tis (flushFields s.si [] [] s.fields).2.2 := fun f => ⟨hw.asc f, hd f⟩
  have hmax : x.fdx.length / 12 = s.size := by rw [h.fdx]; omega
  have ok : ∀ smi : Smi, smi.sfi = sfi → smi.files = x.files → smi.maxDoc = s.size → smi.docCnt = liveBefore s.dead s.size → Maps smi s.dead → Src.OK ⟨smi, s.fields, s.dead⟩ := by
    intro smi g1 g2 g3 g4 g5
    refine ⟨?_, ?_, ?_, ?_, ?_, g5, ?_, ?_⟩
    · show 0 < smi.sfi.skipInterval
      rw [g1, hsfi]; exact h.siPos
    · refine ⟨s.ii, ?_⟩
      show Segment s.ii smi.sfi.skipInterval s.fields
      rw [g1, hsfi]; exact h.seg
    · show smi.files.frq = (flushFields smi.sfi.skipInterval [] [] s.fields).1
      rw [g1, hsfi, g2, ← hfl]
    · show smi.files.prx = (flushFields smi.sfi.skipInterval [] [] s.fields).2.1
      rw [g1, hsfi, g2, ← hfl]
    · show DictOK smi.sfi smi.files.dict.tis (flushFields smi.sfi.skipInterval [] [] s.fields).2.2
      rw [g1, hsfi, g2, hdx]; exact hdict
    · show ∀ x ∈ s.fields, ∀ y ∈ x.2, ∀ p ∈ y.2, p.doc < smi.maxDoc
      rw [g3]; exact h.docs
    · show smi.docCnt = liveBefore s.dead smi.maxDoc
      rw [g3, g4]
  unfold smiNew
  rw [hdx, e2, Res.ok_bind, hmax]
  dsimp only
  cases hdel : x.del with
  | none =>
    have hno : Deletes none s.dead := hdel ▸ h.del
    refine ⟨_, rfl, rfl, rfl, (liveBefore_none hno _).symm, ok _ rfl rfl rfl (liveBefore_none hno _).symm ⟨hno, fun d _ _ => ?_⟩, rfl, rfl, rfl⟩
    rw [liveBefore_none hno]
    show Res.ok ((d : Int) + (base : Int)) = Res.ok ((base + d : Nat) : Int)
    congr 1
    omega
  | some bv =>
    have hbv : Deletes (some bv) s.dead := hdel ▸ h.del
    obtain ⟨m, r1, r2⟩ := docMapLoop_spec hbv s.size 0 0 rfl
    dsimp only
    rw [r1, Res.ok_bind, Nat.zero_add]
    refine ⟨_, rfl, rfl, rfl, rfl, ok _ rfl rfl rfl rfl ⟨hbv, fun d hd hl => ?_⟩, rfl, rfl, rfl⟩
    show (if (d : Int) < 0 then Res.ub else Res.ofOption m[(d : Int).toNat]? >>= fun d => .ok (d + (base : Int))) = _
    have := r2 d hd
    rw [Nat.zero_add] at this
    rw [if_neg (by omega), Int.toNat_natCast, this, hl]
    simp only [Bool.false_eq_true, if_false, Res.ofOption, Res.ok_bind]
    congr 1
    omega

theorem smCreate_spec : ∀ (xs : List (Source × Input)) (base : Nat), (∀ x ∈ xs, x.1.Files x.2) →
    ∃ srcs : List Src, smCreate base (xs.map (·.2)) = .ok (srcs.map (·.smi), base + liveDocs (xs.map (·.1))) ∧ (∀ s ∈ srcs, s.OK) ∧ Bases base srcs ∧
      (∀ f t, Merge.merged srcs f t = mergedPostings base (xs.map (·.1)) f t) ∧ srcs.map (fun s => (s.fields, s.dead, s.smi.maxDoc, s.smi.docCnt)) = xs.map (fun x => (x.1.fields, x.1.dead, x.1.size, liveBefore x.1.dead x.1.size)) ∧
      srcs.map (fun s => (s.smi.del, s.smi.fdx, s.smi.fdt)) = xs.map (fun x => (x.2.del, x.2.fdx, x.2.fdt)) := by
  intro xs
  induction xs with
  | nil => intro base _; exact ⟨[], rfl, (fun s hs => nomatch hs), trivial, (fun f t => rfl), rfl, rfl⟩
  | cons x xs ih =>
    intro base h
    obtain ⟨smi, e1, e2, e3, e4, e5, e6, e7, e8⟩ := smiNew_spec (h x (List.mem_cons_self ..)) base
    obtain ⟨srcs, r1, r2, r3, r4, r5, r6⟩ := ih (base + smi.docCnt) fun y hy => h y (List.mem_cons_of_mem _ hy)
    refine ⟨⟨smi, x.1.fields, x.1.dead⟩ :: srcs, ?_, ?_, ⟨e2, r3⟩, fun f t => ?_, ?_, ?_⟩
    · simp only [List.map_cons, smCreate]
      rw [e1, Res.ok_bind, r1, Res.ok_bind]
      simp only [liveDocs, List.map_cons, List.sum_cons, e4]
      rw [Nat.add_assoc]
    · intro s hs
      rcases List.mem_cons.1 hs with rfl | hs
      · exact e5
      · exact r2 s hs
    · show Src.part _ f t ++ Merge.merged srcs f t = _
      rw [r4, List.map_cons, mergedPostings, e4]
      unfold Src.part renum live
      dsimp only
      rw [e2]
    · rw [List.map_cons, List.map_cons, r5, e3, e4]
    · rw [List.map_cons, List.map_cons, r6, e6, e7, e8]

/-! ### Sizes -/

theorem sum_if_nodup {κ : Type} [DecidableEq κ] (a : κ) (c : Nat) (g : κ → Nat) : ∀ ks : List κ, ks.Nodup → (ks.map fun k => if k = a then c else g k).sum ≤ c + (ks.map g).sum := by
  intro ks
  induction ks with
  | nil => intro _; exact Nat.zero_le _
  | cons k ks ih =>
    intro h
    obtain ⟨h1, h2⟩ := List.nodup_cons.1 h
    simp only [List.map_cons, List.sum_cons]
    by_cases hk : k = a
    · rw [if_pos hk]
      have : ks.map (fun k => if k = a then c else g k) = ks.map g := List.map_congr_left fun x hx => if_neg fun hxa => h1 (by rw [hk, ← hxa]; exact hx)
      rw [this]
      omega
    · rw [if_neg hk]
      have := ih h2
      omega

theorem sum_map_zero {α : Type} (l : List α) : (l.map fun _ => 0).sum = 0 := by
  induction l with
  | nil => rfl
  | cons x l ih => simp only [List.map_cons, List.sum_cons, ih]

/-- Looking distinct keys up finds no more than there is. -/
theorem sum_lookup_le {κ α : Type} [DecidableEq κ] (W : α → Nat) (d : α) (hd : W d = 0) : ∀ (l : List (κ × α)) (ks : List κ), ks.Nodup →
    (ks.map fun k => W (((l.find? fun x => decide (x.1 = k)).map (·.2)).getD d)).sum ≤ (l.map fun x => W x.2).sum := by
  intro l
  induction l with
  | nil =>
    intro ks _
    simp only [List.find?_nil, Option.map_none, Option.getD_none, hd, sum_map_zero]
    exact Nat.zero_le _
  | cons x l ih =>
    intro ks hn
    have h1 : (ks.map fun k => W ((((x :: l).find? fun x => decide (x.1 = k)).map (·.2)).getD d)) =
        ks.map fun k => if k = x.1 then W x.2 else W (((l.find? fun x => decide (x.1 = k)).map (·.2)).getD d) := by
      refine List.map_congr_left fun k _ => ?_
      by_cases hk : k = x.1
      · rw [if_pos hk, List.find?_cons_of_pos (by simpa using hk.symm)]
        rfl
      · rw [if_neg hk, List.find?_cons_of_neg (by simpa using fun h => hk h.symm)]
    rw [h1, List.map_cons, List.sum_cons]
    have := sum_if_nodup x.1 (W x.2) (fun k => W (((l.find? fun x => decide (x.1 = k)).map (·.2)).getD d)) ks hn
    have := ih ks hn
    omega

theorem sum_sum_swap {α β : Type} (g : α → β → Nat) (ys : List β) : ∀ xs : List α, (xs.map fun x => (ys.map (g x)).sum).sum = (ys.map fun y => (xs.map fun x => g x y).sum).sum := by
  intro xs
  induction xs with
  | nil => simp only [List.map_nil, List.sum_nil, sum_map_zero]
  | cons x xs ih =>
    simp only [List.map_cons, List.sum_cons]
    rw [ih]
    have : ∀ ys : List β, (ys.map fun y => g x y + (xs.map fun x => g x y).sum).sum = (ys.map (g x)).sum + (ys.map fun y => (xs.map fun x => g x y).sum).sum := by
      intro ys
      induction ys with
      | nil => rfl
      | cons y ys ih =>
        simp only [List.map_cons, List.sum_cons]
        rw [ih]
        omega
    rw [this]

theorem sum_le_sum {α : Type} {g h : α → Nat} : ∀ {l : List α}, (∀ x ∈ l, g x ≤ h x) → (l.map g).sum ≤ (l.map h).sum := by
  intro l
  induction l with
  | nil => intro _; exact Nat.le_refl _
  | cons x l ih =>
    intro hle
    have := hle x (List.mem_cons_self ..)
    have := ih fun y hy => hle y (List.mem_cons_of_mem _ hy)
    simp only [List.map_cons, List.sum_cons]
    omega

/-- The merged segment has no more than the segments together. -/
theorem merged_weight (w : List Posting → Nat) (hw0 : w [] = 0) (ss : List Source)
    (hw : ∀ base ss f t, w (mergedPostings base ss f t) ≤ (ss.map fun s => w ((postingsOf s.fields f t).getD [])).sum)
    (F : List (Nat × List (Term × List Posting))) (hF : (F.map (·.1)).Nodup) (hterms : ∀ x ∈ F, (x.2.map (·.1)).Nodup)
    (heq : ∀ x ∈ F, ∀ y ∈ x.2, y.2 = mergedPostings 0 ss x.1 y.1) :
    (F.map fun x => (x.2.map fun y => w y.2).sum).sum ≤ (ss.map fun s => (s.fields.map fun x => (x.2.map fun y => w y.2).sum).sum).sum := by
  have h1 : ∀ x ∈ F, (x.2.map fun y => w y.2).sum ≤ (ss.map fun s => (((s.fields.find? fun z => decide (z.1 = x.1)).map (·.2)).getD []).map (fun y => w y.2) |>.sum).sum := by
    intro x hx
    have a1 : (x.2.map fun y => w y.2).sum ≤ (x.2.map fun y => (ss.map fun s => w ((postingsOf s.fields x.1 y.1).getD [])).sum).sum :=
      sum_le_sum fun y hy => by
        rw [heq x hx y hy]
        exact hw 0 ss x.1 y.1
    rw [sum_sum_swap] at a1
    refine Nat.le_trans a1 (sum_le_sum fun s _ => ?_)
    have a2 := sum_lookup_le w [] hw0 (((s.fields.find? fun z => decide (z.1 = x.1)).map (·.2)).getD []) (x.2.map (·.1)) (hterms x hx)
    rw [List.map_map] at a2
    refine Nat.le_trans (Nat.le_of_eq ?_) a2
    congr 1
    refine List.map_congr_left fun y _ => ?_
    show w ((postingsOf s.fields x.1 y.1).getD []) = _
    unfold postingsOf
    rw [find_nat]
    cases s.fields.find? (fun z => decide (z.1 = x.1)) with
    | none => rfl
    | some z => rfl
  refine Nat.le_trans (sum_le_sum h1) ?_
  rw [sum_sum_swap]
  refine sum_le_sum fun s _ => ?_
  have a3 := sum_lookup_le (fun ts : List (Term × List Posting) => (ts.map fun y => w y.2).sum) [] rfl s.fields (F.map (·.1)) hF
  rw [List.map_map] at a3
  exact a3

theorem mergedPostings_length (base : Nat) : ∀ (ss : List Source) (f : Int) (t : Term), (mergedPostings base ss f t).length ≤ (ss.map fun s => ((postingsOf s.fields f t).getD []).length).sum := by
  intro ss
  induction ss generalizing base with
  | nil => intro f t; exact Nat.le_refl _
  | cons s ss ih =>
    intro f t
    have := ih (base + liveBefore s.dead s.size) f t
    have := List.length_filter_le (fun p : Posting => !s.dead p.doc) ((postingsOf s.fields f t).getD [])
    simp only [mergedPostings, List.length_append, List.length_map, List.map_cons, List.sum_cons]
    omega

theorem mergedPostings_occs (base : Nat) : ∀ (ss : List Source) (f : Int) (t : Term),
    ((mergedPostings base ss f t).map fun p => p.occ.length).sum ≤ (ss.map fun s => (((postingsOf s.fields f t).getD []).map fun p => p.occ.length).sum).sum := by
  have hfil : ∀ (q : Posting → Bool) (ps : List Posting), ((ps.filter q).map fun p => p.occ.length).sum ≤ (ps.map fun p => p.occ.length).sum := by
    intro q ps
    induction ps with
    | nil => exact Nat.le_refl _
    | cons p ps ih =>
      rw [List.filter_cons]
      split <;> simp only [List.map_cons, List.sum_cons] <;> omega
  intro ss
  induction ss generalizing base with
  | nil => intro f t; exact Nat.le_refl _
  | cons s ss ih =>
    intro f t
    have := ih (base + liveBefore s.dead s.size) f t
    have := hfil (fun p : Posting => !s.dead p.doc) ((postingsOf s.fields f t).getD [])
    simp only [mergedPostings, List.map_append, List.sum_append, List.map_map, List.map_cons, List.sum_cons]
    have e : (fun p : Posting => p.occ.length) ∘ (fun p : Posting => { p with doc := base + liveBefore s.dead p.doc }) = fun p => p.occ.length := rfl
    rw [e]
    omega

/-! ### The terms -/

theorem mergedPostings_none {ss : List Source} {f : Int} {t : Term} (h : ∀ s ∈ ss, postingsOf s.fields f t = none) : ∀ base, mergedPostings base ss f t = [] := by
  induction ss with
  | nil => intro _; rfl
  | cons s ss ih =>
    intro base
    rw [mergedPostings, h s (List.mem_cons_self ..), ih fun x hx => h x (List.mem_cons_of_mem _ hx)]
    rfl

theorem mergedPostings_mem {ss : List Source} {f : Int} {t : Term} : ∀ {base : Nat} {q : Posting}, q ∈ mergedPostings base ss f t →
    ∃ s ∈ ss, ∃ ps, postingsOf s.fields f t = some ps ∧ ∃ p ∈ ps, s.dead p.doc = false ∧ q.freq = p.freq ∧ q.occ = p.occ := by
  induction ss with
  | nil => intro base q h; cases h
  | cons s ss ih =>
    intro base q h
    rw [mergedPostings] at h
    rcases List.mem_append.1 h with h | h
    · obtain ⟨p, hp, rfl⟩ := List.mem_map.1 h
      obtain ⟨h1, h2⟩ := List.mem_filter.1 hp
      cases hps : postingsOf s.fields f t with
      | none => rw [hps] at h1; cases h1
      | some ps =>
        rw [hps] at h1
        exact ⟨s, List.mem_cons_self .., ps, hps, p, h1, by simpa using h2, rfl, rfl⟩
    · obtain ⟨s', hs', rest⟩ := ih h
      exact ⟨s', List.mem_cons_of_mem _ hs', rest⟩

theorem postingsOf_mem27 {fields : List (Nat × List (Term × List Posting))} {f : Int} {t : Term} {ps : List Posting} (h : postingsOf fields f t = some ps) :
    ∃ x ∈ fields, (x.1 : Int) = f ∧ (t, ps) ∈ x.2 := by
  unfold postingsOf at h
  simp only [Option.map_eq_some_iff, Option.bind_eq_some_iff] at h
  obtain ⟨y, ⟨z, hz, hy⟩, rfl⟩ := h
  have h1 := List.find?_some hz
  have h2 := List.find?_some hy
  simp only [decide_eq_true_eq] at h1 h2
  refine ⟨z, List.mem_of_find?_eq_some hz, h1, ?_⟩
  rw [← h2]
  exact List.mem_of_find?_eq_some hy

theorem asc_length {n : Nat} : ∀ {ps : List Posting} {b : Nat}, ps.Pairwise (fun a b => a.doc < b.doc) → (∀ p ∈ ps, b ≤ p.doc ∧ p.doc < n) → ps.length ≤ n - b := by
  intro ps
  induction ps with
  | nil => intros; exact Nat.zero_le _
  | cons p ps ih =>
    intro b h1 h2
    obtain ⟨a1, a2⟩ := List.pairwise_cons.1 h1
    have h3 := h2 p (List.mem_cons_self ..)
    have := ih (b := p.doc + 1) a2 fun q hq => ⟨a1 q hq, (h2 q (List.mem_cons_of_mem _ hq)).2⟩
    simp only [List.length_cons]
    omega

theorem find_nodup {κ α : Type} [DecidableEq κ] {l : List (κ × α)} (hn : (l.map (·.1)).Nodup) {x : κ × α} (hx : x ∈ l) : l.find? (fun y => decide (y.1 = x.1)) = some x := by
  induction l with
  | nil => cases hx
  | cons z l ih =>
    rw [List.map_cons, List.nodup_cons] at hn
    rcases List.mem_cons.1 hx with rfl | hx
    · rw [List.find?_cons_of_pos (by simp)]
    · rw [List.find?_cons_of_neg, ih hn.2 hx]
      simp only [decide_eq_true_eq]
      intro h
      exact hn.1 (h ▸ List.mem_map_of_mem hx)

theorem nodup_of_asc {α : Type} {ts : List (Term × α)} (h : ts.Pairwise fun a b => a.1 < b.1) : (ts.map (·.1)).Nodup := by
  refine List.Pairwise.imp ?_ (List.pairwise_map.2 h)
  intro a b hab he
  rw [he] at hab
  exact List.lt_irrefl _ hab

theorem merged_bound {srcs : List Src} {f : Int} {t : Term} {n : Nat} : ∀ {b : Nat}, (∀ s ∈ srcs, s.OK) → Bases b srcs → n = b + (srcs.map fun s => s.smi.docCnt).sum →
    ∀ q ∈ Merge.merged srcs f t, q.doc < n := by
  induction srcs with
  | nil => intro b _ _ _ q hq; cases hq
  | cons s ss ih =>
    intro b hok hb hn q hq
    rw [List.map_cons, List.sum_cons] at hn
    rcases List.mem_append.1 (show q ∈ s.part f t ++ Merge.merged ss f t from hq) with hq | hq
    · have := ((hok s (List.mem_cons_self ..)).part_bounds q hq).2
      have := hb.1
      omega
    · exact ih (fun x hx => hok x (List.mem_cons_of_mem _ hx)) hb.2 (by omega) q hq

/-- **C27, terms.** Segments with any terms and any deletions are merged into one that is written exactly as if it had been
made of the documents that are not deleted: for each term those documents, renumbered in order, with their frequencies and
positions; a term without such documents is not in it. The merged segment can be read (C20–C22) and merged again. -/
theorem c27_terms (xs : List (Source × Input)) (hxs : ∀ x ∈ xs, x.1.Files x.2) (ii si cnt : Nat) (hii : 0 < ii) (hii' : ii < 2 ^ 31) (hsi : 0 < si) (hsi' : si < 2 ^ 31) (hcnt : cnt < 2 ^ 31)
    (hnum : ∀ x ∈ xs, ∀ f ∈ x.1.fields, f.1 < cnt) (hfit : Fit (xs.map (·.1))) :
    ∃ smis files F, smCreate 0 (xs.map (·.2)) = .ok (smis, liveDocs (xs.map (·.1))) ∧ mergeTerms ii si cnt smis = .ok files ∧ flush ii si F = .ok files ∧ Segment ii si F ∧
      (∀ f t, postingsOf F f t = if mergedPostings 0 (xs.map (·.1)) f t = [] then none else some (mergedPostings 0 (xs.map (·.1)) f t)) ∧
      (∀ x ∈ F, x.1 < cnt ∧ ∀ y ∈ x.2, ∀ p ∈ y.2, p.doc < liveDocs (xs.map (·.1))) := by
  obtain ⟨srcs, r1, r2, r3, r4, r5, -⟩ := smCreate_spec xs 0 hxs
  rw [Nat.zero_add] at r1
  obtain ⟨F, q1, q2, q3⟩ := mergeTerms_spec hii hsi r2 r3 cnt
  have hsum : liveDocs (xs.map (·.1)) = 0 + (srcs.map fun s => s.smi.docCnt).sum := by
    rw [Nat.zero_add]
    have : (srcs.map fun s => s.smi.docCnt) = (xs.map (·.1)).map fun s => liveBefore s.dead s.size := by
      have := congrArg (List.map (·.2.2.2)) r5
      rw [List.map_map, List.map_map] at this
      rw [List.map_map]
      exact this
    rw [this]
    rfl
  have hnums : (F.map (·.1)).Nodup := by rw [q1]; exact List.nodup_range
  have hlt : ∀ x ∈ F, x.1 < cnt := by
    intro x hx
    have : x.1 ∈ F.map (·.1) := List.mem_map_of_mem hx
    rw [q1] at this
    exact List.mem_range.1 this
  have heq : ∀ x ∈ F, ∀ y ∈ x.2, y.2 = mergedPostings 0 (xs.map (·.1)) x.1 y.1 := by
    intro x hx y hy
    rw [← r4]
    exact ((q2 x hx).eq y hy).1
  have hterms : ∀ x ∈ F, (x.2.map (·.1)).Nodup := fun x hx => nodup_of_asc (q2 x hx).asc
  have hdocs : ∀ x ∈ F, ∀ y ∈ x.2, ∀ p ∈ y.2, p.doc < liveDocs (xs.map (·.1)) := by
    intro x hx y hy p hp
    rw [((q2 x hx).eq y hy).1] at hp
    exact merged_bound r2 r3 hsum p hp
  have hpost : ∀ x ∈ F, ∀ y ∈ x.2, Postings y.2 := by
    intro x hx y hy
    have e := ((q2 x hx).eq y hy).1
    have hasc : y.2.Pairwise fun a b => a.doc < b.doc := by rw [e]; exact (merged_asc r2 r3).1
    have hd := hfit.docs
    have hf : ∀ p ∈ y.2, p.freq = p.occ.length ∧ 0 < p.freq ∧ ∀ z ∈ p.occ, -1 ≤ z ∧ z < 2 ^ 31 := by
      intro p hp
      rw [heq x hx y hy] at hp
      obtain ⟨s, hs, ps, hps, p', hp', -, e1, e2⟩ := mergedPostings_mem hp
      obtain ⟨xi, hxi, rfl⟩ := List.mem_map.1 hs
      obtain ⟨z, hz, -, hzt⟩ := postingsOf_mem27 hps
      have hP := (hxs xi hxi).seg.postings z hz _ hzt
      rw [e1, e2]
      exact ⟨(hP.freq p' hp').1, (hP.freq p' hp').2, hP.occ p' hp'⟩
    refine ⟨hasc, fun p hp => ?_, fun p hp => ⟨(hf p hp).1, (hf p hp).2.1⟩, fun p hp => (hf p hp).2.2, ?_, ?_⟩
    · have := hdocs x hx y hy p hp
      omega
    · have := asc_length (b := 0) hasc fun p hp => ⟨Nat.zero_le _, hdocs x hx y hy p hp⟩
      omega
    · rw [heq x hx y hy]
      exact hfit.occs x.1 y.1
  have hsizes : ∀ x ∈ F, x.2.length < 2 ^ 31 := by
    intro x hx
    have hw := merged_weight (fun ps => if ps = [] then 0 else 1) (if_pos rfl) (xs.map (·.1)) ?_ F hnums hterms heq
    · have h1 : x.2.length = (x.2.map fun y => if y.2 = [] then 0 else 1).sum := by
        have hne : ∀ y ∈ x.2, y.2 ≠ [] := fun y hy => ((q2 x hx).eq y hy).2.1
        revert hne
        generalize x.2 = l
        intro hne
        induction l with
        | nil => rfl
        | cons y l ih =>
          rw [List.map_cons, List.sum_cons, if_neg (hne y (List.mem_cons_self ..)), ← ih fun z hz => hne z (List.mem_cons_of_mem _ hz), List.length_cons]
          omega
      have h2 := le_sum_of_mem (f := fun x : Nat × List (Term × List Posting) => (x.2.map fun y => if y.2 = [] then 0 else 1).sum) hx
      have h3 : ((xs.map (·.1)).map fun s => (s.fields.map fun x => (x.2.map fun y => if y.2 = [] then 0 else 1).sum).sum).sum ≤
          ((xs.map (·.1)).map fun s => (s.fields.map fun x => x.2.length).sum).sum := by
        refine sum_le_sum fun s _ => sum_le_sum fun z _ => ?_
        generalize z.2 = l
        induction l with
        | nil => exact Nat.le_refl _
        | cons y l ih =>
          rw [List.map_cons, List.sum_cons, List.length_cons]
          split <;> omega
      have h4 := hfit.terms
      omega
    · intro base ss f t
      by_cases hm : mergedPostings base ss f t = []
      · rw [if_pos hm]; exact Nat.zero_le _
      · rw [if_neg hm]
        obtain ⟨q, hq⟩ := List.exists_mem_of_ne_nil _ hm
        obtain ⟨s, hs, ps, hps, p, hp, -⟩ := mergedPostings_mem hq
        have := le_sum_of_mem (f := fun s : Source => if (postingsOf s.fields f t).getD [] = [] then 0 else 1) hs
        have h1 : (if (postingsOf s.fields f t).getD [] = [] then 0 else 1) = 1 := by
          rw [if_neg]
          rw [hps, Option.getD_some]
          intro h
          rw [h] at hp
          cases hp
        omega
  have hseg : Segment ii si F := by
    refine ⟨hii, hii', hsi', ?_, hnums, fun x hx => ?_, hsizes, fun x hx => (q2 x hx).asc, fun x hx y hy => ?_, hpost, ?_, ?_⟩
    · have := congrArg List.length q1
      rw [List.length_map, List.length_range] at this
      omega
    · have := hlt x hx; omega
    · have hne := ((q2 x hx).eq y hy).2.1
      obtain ⟨p, hp⟩ := List.exists_mem_of_ne_nil _ hne
      rw [heq x hx y hy] at hp
      obtain ⟨s, hs, ps, hps, -⟩ := mergedPostings_mem hp
      obtain ⟨xi, hxi, rfl⟩ := List.mem_map.1 hs
      obtain ⟨z, hz, -, hzt⟩ := postingsOf_mem27 hps
      exact (hxs xi hxi).seg.termLen z hz (y.1, ps) hzt
    · exact Nat.lt_of_le_of_lt (merged_weight (·.length) rfl _ (fun base ss f t => mergedPostings_length base ss f t) F hnums hterms heq) hfit.total
    · exact Nat.lt_of_le_of_lt (merged_weight (fun ps => (ps.map fun p => p.occ.length).sum) rfl _ (fun base ss f t => mergedPostings_occs base ss f t) F hnums hterms heq) hfit.totalOccs
  obtain ⟨files, hfiles, -⟩ := c22_session_partial ii si F hseg hsi
  refine ⟨_, files, F, r1, by rw [q3]; exact hfiles, hfiles, hseg, ?_, fun x hx => ⟨hlt x hx, hdocs x hx⟩⟩
  intro f t
  by_cases hf : 0 ≤ f ∧ f < cnt
  · obtain ⟨n, rfl⟩ : ∃ n : Nat, f = n := ⟨f.toNat, by omega⟩
    have hn : n ∈ F.map (·.1) := by rw [q1]; exact List.mem_range.2 (by omega)
    obtain ⟨x, hx, rfl⟩ := List.mem_map.1 hn
    unfold postingsOf
    rw [find_nat, find_nodup hnums hx, Option.bind_some]
    by_cases hm : mergedPostings 0 (xs.map (·.1)) x.1 t = []
    · rw [if_pos hm, List.find?_eq_none.2]
      · rfl
      · intro y hy
        simp only [decide_eq_true_eq]
        intro hyt
        have := ((q2 x hx).eq y hy).2.1
        rw [heq x hx y hy, hyt] at this
        exact this hm
    · rw [if_neg hm]
      have hin := (q2 x hx).all t (by rw [r4]; exact hm)
      rw [r4] at hin
      rw [find_nodup (hterms x hx) hin]
      rfl
  · have h1 : mergedPostings 0 (xs.map (·.1)) f t = [] := by
      refine mergedPostings_none (fun s hs => ?_) 0
      obtain ⟨xi, hxi, rfl⟩ := List.mem_map.1 hs
      cases hps : postingsOf xi.1.fields f t with
      | none => rfl
      | some ps =>
        obtain ⟨z, hz, hzf, -⟩ := postingsOf_mem27 hps
        have := hnum xi hxi z hz
        omega
    rw [if_pos h1]
    cases hps : postingsOf F f t with
    | none => rfl
    | some ps =>
      obtain ⟨z, hz, hzf, -⟩ := postingsOf_mem27 hps
      have := hlt z hz
      omega

/-! ### Stored fields and term vectors -/

section Stored
open Ferret.Fis Ferret.Fields

/-- The files of the stored fields of a segment were written by adding its documents, with a table of fields that has since
grown to `T`. -/
structure StoredIn (Z : Zip) (T : FIS) (docs : List (Doc × List TvIn)) (x : Input) : Prop where
  wrote : ∃ t es w, WF t ∧ (∀ p ∈ docsOf es, GoodEvent Z (tableAfter t es) p.1 p.2) ∧ Within (tableAfter t es) T ∧ run Z (fwOpen t) es = .ok w ∧
    docsOf es = docs ∧ x.fdx = w.fdx ∧ x.fdt = w.fdt
  fits : x.fdt.length < 2 ^ 64

theorem keep_length {α : Type} (dead : Nat → Bool) : ∀ (l : List α) (j : Nat), (keep dead j l).length + liveBefore dead j = liveBefore dead (j + l.length) := by
  intro l
  induction l with
  | nil => intro j; simp [keep]
  | cons x l ih =>
    intro j
    have := ih (j + 1)
    have hs := liveBefore_succ dead j
    rw [List.length_cons, show j + (l.length + 1) = j + 1 + l.length by omega, ← this, hs, keep]
    split
    · simp [*]
    · simp [*]; omega

theorem layout_length (ps : List (List Byte × Nat)) : ∀ off, (layout off ps).length = 12 * ps.length := by
  induction ps with
  | nil => intro _; rfl
  | cons p ps ih =>
    intro off
    rw [layout, List.length_append, List.length_append, beBytes_length, beBytes_length, ih, List.length_cons]
    omega

/-- **C27, stored fields and term vectors.** The files that are merged are those that are written when only the documents that
are not deleted are added, in order. -/
theorem c27_fields (Z : Zip) (hZ : Lawful Z) (T : FIS) (hT : WF T) (xs : List ((Source × Input) × List (Doc × List TvIn)))
    (hxs : ∀ x ∈ xs, x.1.1.Files x.1.2 ∧ StoredIn Z T x.2 x.1.2) :
    ∃ smis w, smCreate 0 (xs.map (·.1.2)) = .ok (smis, liveDocs (xs.map (·.1.1))) ∧ mergeFields smis ([], []) = .ok (w.fdx, w.fdt) ∧
      run Z (fwOpen T) (onlyDocs (xs.flatMap fun x => keep x.1.1.dead 0 x.2)) = .ok w ∧ w.fis = T ∧
      (∀ p ∈ docsOf (onlyDocs (xs.flatMap fun x => keep x.1.1.dead 0 x.2)), GoodEvent Z (tableAfter T (onlyDocs (xs.flatMap fun x => keep x.1.1.dead 0 x.2))) p.1 p.2) ∧
      (xs.flatMap fun x => keep x.1.1.dead 0 x.2).length = liveDocs (xs.map (·.1.1)) := by
  obtain ⟨srcs, r1, -, -, -, r5, r6⟩ := smCreate_spec (xs.map (·.1)) 0 (by
    intro x hx
    obtain ⟨y, hy, rfl⟩ := List.mem_map.1 hx
    exact (hxs y hy).1)
  rw [Nat.zero_add, List.map_map, List.map_map] at r1
  have hdoc : ∀ x ∈ xs, x.1.2.fdx = layout 0 (x.2.map (pieceAt Z T)) ∧ x.1.2.fdt = pieces (x.2.map (pieceAt Z T)) ∧ x.1.1.size = x.2.length ∧
      ∀ p ∈ x.2, GoodEvent Z T p.1 p.2 ∧ ∀ f ∈ p.1, ∃ fi, getField T f.name = some fi := by
    intro x hx
    obtain ⟨h1, ⟨t, es, w, a1, a2, a3, a4, a5, a6, a7⟩, -⟩ := hxs x hx
    obtain ⟨w', b1, b2, b3, b4, b5⟩ := run_layout hZ T es (fwOpen t) [] a1 rfl rfl a2 a3
    rw [a4] at b1
    cases b1
    rw [a5, List.nil_append] at b3 b4
    rw [a5] at b5 a2
    refine ⟨by rw [a6, b3], by rw [a7, b4], ?_, fun p hp => ?_⟩
    · have := h1.fdx
      rw [a6, b3, layout_length, List.length_map] at this
      omega
    · have hk : ∀ f ∈ p.1, ∃ fi, getField w.fis f.name = some fi := b5 p hp
      rw [b2] at hk
      have hg := a2 p hp
      refine ⟨⟨⟨hg.doc.names, hg.doc.few, ?_⟩, hg.own⟩, fun f hf => ?_⟩
      · rw [storedOf_within a3 p.1 hk]
        exact hg.doc.fields
      · obtain ⟨fi, hfi⟩ := hk f hf
        exact ⟨fi, getField_within a3 hfi⟩
  have hlive : ∀ p ∈ xs.flatMap (fun x => keep x.1.1.dead 0 x.2), GoodEvent Z T p.1 p.2 ∧ ∀ f ∈ p.1, ∃ fi, getField T f.name = some fi := by
    intro p hp
    obtain ⟨x, hx, hpx⟩ := List.mem_flatMap.1 hp
    exact (hdoc x hx).2.2.2 p (keep_mem hpx)
  have htab : tableAfter T (onlyDocs (xs.flatMap fun x => keep x.1.1.dead 0 x.2)) = T := tableAfter_known _ fun p hp => (hlive p hp).2
  have hgood : ∀ p ∈ docsOf (onlyDocs (xs.flatMap fun x => keep x.1.1.dead 0 x.2)), GoodEvent Z (tableAfter T (onlyDocs (xs.flatMap fun x => keep x.1.1.dead 0 x.2))) p.1 p.2 := by
    intro p hp
    rw [docsOf_onlyDocs] at hp
    rw [htab]
    exact (hlive p hp).1
  obtain ⟨w, c1, c2, c3, c4, -⟩ := run_layout hZ T _ (fwOpen T) [] hT rfl rfl hgood (by rw [show (fwOpen T).fis = T from rfl, htab]; exact Within.refl T)
  rw [List.nil_append, docsOf_onlyDocs] at c3 c4
  have hl : srcs.length = xs.length := by
    have := congrArg List.length r5
    simpa using this
  have hpcs : ∀ (xs' : List ((Source × Input) × List (Doc × List TvIn))) (srcs' : List Src), (∀ x ∈ xs', x ∈ xs) →
      srcs'.map (fun s => (s.fields, s.dead, s.smi.maxDoc, s.smi.docCnt)) = (xs'.map (·.1)).map (fun x => (x.1.fields, x.1.dead, x.1.size, liveBefore x.1.dead x.1.size)) →
      srcs'.map (fun s => (s.smi.del, s.smi.fdx, s.smi.fdt)) = (xs'.map (·.1)).map (fun x => (x.2.del, x.2.fdx, x.2.fdt)) →
      ∃ ps : List Pcs, ps.map (·.smi) = srcs'.map (·.smi) ∧ (∀ x ∈ ps, x.OK) ∧ (ps.flatMap fun x => keep x.dead 0 x.ps) = (xs'.flatMap fun x => keep x.1.1.dead 0 x.2).map (pieceAt Z T) := by
    intro xs'
    induction xs' with
    | nil =>
      intro srcs' _ h _
      cases srcs' with
      | nil => exact ⟨[], rfl, (fun x hx => nomatch hx), rfl⟩
      | cons => cases h
    | cons x xs' ih =>
      intro srcs' hin h1 h2
      cases srcs' with
      | nil => cases h1
      | cons s srcs' =>
        simp only [List.map_cons, List.cons.injEq, Prod.mk.injEq] at h1 h2
        obtain ⟨⟨-, -, g3, -⟩, h1⟩ := h1
        obtain ⟨⟨g4, g5, g6⟩, h2⟩ := h2
        obtain ⟨ps, i1, i2, i3⟩ := ih srcs' (fun y hy => hin y (List.mem_cons_of_mem _ hy)) h1 h2
        have hx := hin x (List.mem_cons_self ..)
        obtain ⟨d1, d2, d3, d4⟩ := hdoc x hx
        refine ⟨⟨s.smi, x.2.map (pieceAt Z T), x.1.1.dead⟩ :: ps, by rw [List.map_cons, List.map_cons, i1], fun y hy => ?_, ?_⟩
        · rcases List.mem_cons.1 hy with rfl | hy
          · refine ⟨by rw [g5, d1], by rw [g6, d2], by rw [g3, d3, List.length_map], by rw [g4]; exact (hxs x hx).1.del, fun q hq => ?_, ?_⟩
            · obtain ⟨p, -, rfl⟩ := List.mem_map.1 hq
              unfold pieceAt
              split
              · exact Nat.mod_lt _ (by decide)
              · exact (by decide : (0 : Nat) < 2 ^ 32)
            · have := (hxs x hx).2.fits
              rw [d2] at this
              exact this
          · exact i2 y hy
        · rw [List.flatMap_cons, List.flatMap_cons, List.map_append, i3, keep_map]
  obtain ⟨ps, p1, p2, p3⟩ := hpcs xs srcs (fun x hx => hx) r5 r6
  refine ⟨_, w, r1, ?_, c1, by rw [c2]; exact htab, hgood, ?_⟩
  · have := mergeFields_spec ps p2 []
    rw [List.nil_append, p3, ← c3, ← c4, p1] at this
    exact this
  · clear hlive htab hgood c1 c2 c3 c4 hpcs p1 p2 p3 r1 r5 r6 hl
    induction xs with
    | nil => rfl
    | cons x xs ih =>
      rw [List.flatMap_cons, List.length_append, List.map_cons, liveDocs, List.map_cons, List.sum_cons]
      rw [ih (fun y hy => hxs y (List.mem_cons_of_mem _ hy)) (fun y hy => hdoc y (List.mem_cons_of_mem _ hy))]
      have := keep_length x.1.1.dead x.2 0
      rw [Nat.zero_add] at this
      rw [(hdoc x (List.mem_cons_self ..)).2.2.1, ← this]
      rfl

/-- **C27, reading merged documents.** Document `k` of the merged segment is the `k`-th document that is not deleted: the
reader gives exactly its stored fields and exactly its term vectors. -/
theorem c27_read (Z : Zip) (hZ : Lawful Z) (T : FIS) (hT : WF T) (hTn : T.fields.length < 2 ^ 31) (xs : List ((Source × Input) × List (Doc × List TvIn)))
    (hxs : ∀ x ∈ xs, x.1.1.Files x.1.2 ∧ StoredIn Z T x.2 x.1.2) (hgv : ∀ x ∈ xs, ∀ p ∈ x.2, GoodVectors p.2) (hfit : liveDocs (xs.map (·.1.1)) * 12 < 2 ^ 31) :
    ∃ smis fdx fdt, smCreate 0 (xs.map (·.1.2)) = .ok (smis, liveDocs (xs.map (·.1.1))) ∧ mergeFields smis ([], []) = .ok (fdx, fdt) ∧
      (fdt.length < 2 ^ 31 → (frOpen fdt fdx T).size = liveDocs (xs.map (·.1.1)) ∧
        ∀ (k : Nat) (d : Doc) (tvs : List TvIn), (xs.flatMap fun x => keep x.1.1.dead 0 x.2)[k]? = some (d, tvs) →
          frGetDoc Z (frOpen fdt fdx T) k = .ok (storedFields T d) ∧
          ∀ field : Name, srTermVector (frOpen fdt fdx T) k field = .ok (vectorOf T tvs field)) := by
  obtain ⟨smis, w, a1, a2, a3, a4, a5, a6⟩ := c27_fields Z hZ T hT xs hxs
  refine ⟨smis, w.fdx, w.fdt, a1, a2, fun hlen => ?_⟩
  obtain ⟨w1, b1, b2, b3⟩ := stored_wf Z hZ hT _ a5
  rw [a3] at b1
  cases b1
  have hgv' : ∀ p ∈ docsOf (onlyDocs (xs.flatMap fun x => keep x.1.1.dead 0 x.2)), GoodEvent Z (tableAfter T (onlyDocs (xs.flatMap fun x => keep x.1.1.dead 0 x.2))) p.1 p.2 ∧ GoodVectors p.2 := by
    intro p hp
    refine ⟨a5 p hp, ?_⟩
    rw [docsOf_onlyDocs] at hp
    obtain ⟨x, hx, hpx⟩ := List.mem_flatMap.1 hp
    exact hgv x hx p (keep_mem hpx)
  obtain ⟨w2, c1, c2, c3⟩ := vector_wf Z hZ hT _ hgv'
  rw [a3] at c1
  cases c1
  have e0 : tableAfter w.fis [] = T := a4
  have d1 := b3 [] (by rw [e0]; exact hTn) (by omega) (by rw [docsOf_onlyDocs, a6]; exact hfit)
  have d2 := c3 [] (by rw [e0]; exact hTn) hlen (by rw [docsOf_onlyDocs, a6]; exact hfit)
  rw [e0] at d1 d2
  rw [docsOf_onlyDocs] at d1 d2
  exact ⟨by rw [d1.1, a6], fun k d tvs hk => ⟨d1.2 k d tvs hk, d2.1 k d tvs hk⟩⟩

end Stored

/-! ### Norms -/

theorem normsLoop_spec {bv : BitVector.BV} {dead : Nat → Bool} (h : Deletes (some bv) dead) : ∀ (l : List Byte) (k : Nat), normsLoop bv l.length k l = .ok (keep dead k l) := by
  intro l
  induction l with
  | nil => intro k; rfl
  | cons b l ih =>
    intro k
    have h1 : BitVector.get bv (k : Int) = .ok (dead k) := h k
    rw [List.length_cons, normsLoop, show rdBytes 1 (b :: l) = .ok ([b], l) from rdBytes_append [b] l, Res.ok_bind, h1, Res.ok_bind]
    dsimp only
    rw [ih, Res.ok_bind, keep]
    split <;> rfl

theorem keep_none {α : Type} {dead : Nat → Bool} (h : Deletes none dead) : ∀ (l : List α) (j : Nat), keep dead j l = l := by
  intro l
  induction l with
  | nil => intro j; rfl
  | cons x l ih =>
    intro j
    have : Res.ok false = Res.ok (dead j) := h j
    simp only [Res.ok.injEq] at this
    rw [keep, ← this, ih]
    simp

/-- **C27, norms.** The norms of a field in the merged segment are those of the documents that are not deleted, in order; they
are 0 for the documents of a segment that has none for the field. -/
theorem c27_norms (xs : List ((Source × Input) × Option (List Byte))) (hxs : ∀ x ∈ xs, x.1.1.Files x.1.2 ∧ ∀ l, x.2 = some l → l.length = x.1.1.size) :
    ∃ smis, smCreate 0 (xs.map (·.1.2)) = .ok (smis, liveDocs (xs.map (·.1.1))) ∧
      mergeNorms (smis.zip (xs.map (·.2))) = .ok (xs.flatMap fun x => keep x.1.1.dead 0 (x.2.getD (List.replicate x.1.1.size 0))) := by
  obtain ⟨srcs, r1, -, -, -, r5, r6⟩ := smCreate_spec (xs.map (·.1)) 0 (by
    intro x hx
    obtain ⟨y, hy, rfl⟩ := List.mem_map.1 hx
    exact (hxs y hy).1)
  rw [Nat.zero_add, List.map_map, List.map_map] at r1
  refine ⟨_, r1, ?_⟩
  clear r1
  induction xs generalizing srcs with
  | nil =>
    cases srcs with
    | nil => rfl
    | cons => cases r5
  | cons x xs ih =>
    cases srcs with
    | nil => cases r5
    | cons s srcs =>
      simp only [List.map_cons, List.cons.injEq, Prod.mk.injEq] at r5 r6
      obtain ⟨⟨-, -, g3, g7⟩, r5⟩ := r5
      obtain ⟨⟨g4, g5, g6⟩, r6⟩ := r6
      have hx := hxs x (List.mem_cons_self ..)
      have hi := ih (fun y hy => hxs y (List.mem_cons_of_mem _ hy)) srcs r5 r6
      rw [List.map_cons, List.map_cons, List.zip_cons_cons]
      unfold mergeNorms
      rw [hi, List.flatMap_cons]
      have hrep : ∀ (dead : Nat → Bool) (n j : Nat), keep dead j (List.replicate n (0 : Byte)) = List.replicate (keep dead j (List.replicate n (0 : Byte))).length 0 := by
        intro dead n
        induction n with
        | zero => intro j; rfl
        | succ n ihn =>
          intro j
          rw [List.replicate_succ, keep]
          split
          · exact ihn (j + 1)
          · rw [List.length_cons, List.replicate_succ, ← ihn (j + 1)]
      cases hn : x.2 with
      | none =>
        dsimp only
        rw [Res.ok_bind, Res.ok_bind, Option.getD_none, hrep]
        have := keep_length x.1.1.dead (List.replicate x.1.1.size (0 : Byte)) 0
        rw [Nat.zero_add, List.length_replicate] at this
        rw [g7, ← this]
        rfl
      | some l =>
        have hl := hx.2 l hn
        have hd := hx.1.del
        rw [← g4] at hd
        dsimp only
        rw [Option.getD_some, g3, ← hl]
        cases hdel : s.smi.del with
        | none =>
          rw [hdel] at hd
          have := rdBytes_append l []
          rw [List.append_nil] at this
          dsimp only
          rw [this, Res.ok_bind, Res.ok_bind, Res.ok_bind, keep_none hd]
        | some bv =>
          rw [hdel] at hd
          dsimp only
          rw [normsLoop_spec hd l 0, Res.ok_bind, Res.ok_bind]

/-! ### The buffer of terms -/

/-- **C27, the buffer of terms.** The merger keeps its last terms in a buffer. If no `ii + 2` terms in a row are together longer
than it (`ii` is the interval of the index), the dictionary is written as from the terms themselves. -/
theorem c27_buffer_partial (ii si : Nat) (hii : 0 < ii) (mem : Nat → Byte) (fields : List (Nat × List (Term × TI)))
    (hlen : ∀ f ∈ fields, ∀ e ∈ f.2, e.1.length ≤ 254 ∧ ∀ b ∈ e.1, b ≠ 0)
    (hwin : ∀ k, (((fields.flatMap fun f => f.2.map fun e => e.1.length + 1).drop k).take (ii + 2)).sum ≤ (ii + 1) * 255) :
    bufDict ii si mem fields = writeDict ii si fields := by
  obtain ⟨s, w, a1, a2, a3⟩ := bufFields_spec hii fields ⟨tiwOpen ii si, mem, 0, none, none⟩ (tiwOpen ii si) ⟨rfl, rfl, Nat.zero_le _, rfl, rfl⟩ hwin hlen
  unfold bufDict writeDict
  rw [a1, a2, Res.ok_bind, Res.ok_bind, a3]

/-- With the usual interval of 128, terms of up to 252 bytes are short enough. -/
theorem c27_buffer_usual (si : Nat) (mem : Nat → Byte) (fields : List (Nat × List (Term × TI)))
    (hlen : ∀ f ∈ fields, ∀ e ∈ f.2, e.1.length ≤ 252 ∧ ∀ b ∈ e.1, b ≠ 0) : bufDict 128 si mem fields = writeDict 128 si fields := by
  refine c27_buffer_partial 128 si (by decide) mem fields (fun f hf e he => ⟨by have := (hlen f hf e he).1; omega, (hlen f hf e he).2⟩) fun k => ?_
  have key : ∀ (l : List Nat) (n : Nat), (∀ x ∈ l, x ≤ 253) → (l.take n).sum ≤ n * 253 := by
    intro l
    induction l with
    | nil => intro n _; simp
    | cons x l ih =>
      intro n hx
      cases n with
      | zero => simp
      | succ n =>
        have := ih n fun y hy => hx y (List.mem_cons_of_mem _ hy)
        have := hx x (List.mem_cons_self ..)
        rw [List.take_succ_cons, List.sum_cons]
        omega
  refine Nat.le_trans (key _ _ fun x hx => ?_) (by decide)
  have hx' := List.mem_of_mem_drop hx
  obtain ⟨f, hf, hxf⟩ := List.mem_flatMap.1 hx'
  obtain ⟨e, he, rfl⟩ := List.mem_map.1 hxf
  have := (hlen f hf e he).1
  omega

/-- Four terms, three of them of 254 bytes. -/
def longTerms : List (Nat × List (Term × TI)) :=
  [(0, [(List.replicate 251 97, ⟨1, 0, 0, 0⟩), (List.replicate 254 98, ⟨1, 1, 1, 0⟩), (List.replicate 254 99, ⟨1, 2, 2, 0⟩),
    (List.replicate 252 100 ++ [99, 99], ⟨1, 3, 3, 0⟩)])]

/-- Without the condition the buffer is overwritten too early (index.c 5976–5984): with an interval of 1, of these four terms the
third is not found in the merged segment. -/
theorem c27_buffer_wrong :
    (bufDict 1 3 (fun _ => 0) longTerms >>= fun fs => sfiOpen fs >>= fun sfi => lookupRun sfi fs.tis tirOpen ((longTerms.flatMap (·.2)).map fun e => (0, e.1))) =
      .ok [some ⟨1, 0, 0, 0⟩, some ⟨1, 1, 1, 0⟩, none, some ⟨1, 3, 3, 0⟩] ∧
    (writeDict 1 3 longTerms >>= fun fs => sfiOpen fs >>= fun sfi => lookupRun sfi fs.tis tirOpen ((longTerms.flatMap (·.2)).map fun e => (0, e.1))) =
      .ok [some ⟨1, 0, 0, 0⟩, some ⟨1, 1, 1, 0⟩, some ⟨1, 2, 2, 0⟩, some ⟨1, 3, 3, 0⟩] := by
  decide +kernel

/-! ### The merged segment is read, and merged again -/

/-- **C27, reading merged terms.** An enumerator of the merged segment gives, for every term, exactly the documents that are not
deleted, renumbered, with their frequencies and positions, whatever is called on it (with the restrictions of C22). -/
theorem c27_session_partial (xs : List (Source × Input)) (hxs : ∀ x ∈ xs, x.1.Files x.2) (ii si cnt : Nat) (hii : 0 < ii) (hii' : ii < 2 ^ 31) (hsi : 0 < si) (hsi' : si < 2 ^ 31) (hcnt : cnt < 2 ^ 31)
    (hnum : ∀ x ∈ xs, ∀ f ∈ x.1.fields, f.1 < cnt) (hfit : Fit (xs.map (·.1))) :
    ∃ smis files F, smCreate 0 (xs.map (·.2)) = .ok (smis, liveDocs (xs.map (·.1))) ∧ mergeTerms ii si cnt smis = .ok files ∧
      (∀ f t, postingsOf F f t = if mergedPostings 0 (xs.map (·.1)) f t = [] then none else some (mergedPostings 0 (xs.map (·.1)) f t)) ∧
      (files.dict.tis.length < 2 ^ 64 → files.dict.tix.length < 2 ^ 64 →
        ∃ sfi, sfiOpen files.dict = .ok sfi ∧ ∀ (isPos : Bool) (del : Option BitVector.BV) (dead : Nat → Bool), Deletes del dead → ∀ ops : List PostOp, (∀ op ∈ ops, usable si isPos op = true) →
          postRun sfi files.dict.tis ⟨tirOpen, stdeNew isPos sfi.skipInterval del files.frq files.prx⟩ ops = .ok (PCur.run F dead ⟨[], []⟩ ops)) := by
  obtain ⟨smis, files, F, a1, a2, a3, a4, a5, -⟩ := c27_terms xs hxs ii si cnt hii hii' hsi hsi' hcnt hnum hfit
  obtain ⟨fs, b1, b2⟩ := c22_session_partial ii si F a4 hsi
  rw [a3] at b1
  cases b1
  exact ⟨smis, files, F, a1, a2, a5, b2⟩

/-- **C27, merging again.** The merged segment is as one that was written: it can be merged itself. -/
theorem c27_again (xs : List (Source × Input)) (hxs : ∀ x ∈ xs, x.1.Files x.2) (ii si cnt : Nat) (hii : 0 < ii) (hii' : ii < 2 ^ 31) (hsi : 0 < si) (hsi' : si < 2 ^ 31) (hcnt : cnt < 2 ^ 31)
    (hnum : ∀ x ∈ xs, ∀ f ∈ x.1.fields, f.1 < cnt) (hfit : Fit (xs.map (·.1))) :
    ∃ smis files F, smCreate 0 (xs.map (·.2)) = .ok (smis, liveDocs (xs.map (·.1))) ∧ mergeTerms ii si cnt smis = .ok files ∧ (∀ x ∈ F, x.1 < cnt) ∧
      (∀ f t, postingsOf F f t = if mergedPostings 0 (xs.map (·.1)) f t = [] then none else some (mergedPostings 0 (xs.map (·.1)) f t)) ∧
      (files.dict.tis.length < 2 ^ 64 → files.dict.tix.length < 2 ^ 64 → ∀ fdx fdt : List Byte, fdx.length = 12 * liveDocs (xs.map (·.1)) →
        Source.Files ⟨ii, si, F, liveDocs (xs.map (·.1)), fun _ => false⟩ ⟨files, fdx, fdt, none⟩) := by
  obtain ⟨smis, files, F, a1, a2, a3, a4, a5, a6⟩ := c27_terms xs hxs ii si cnt hii hii' hsi hsi' hcnt hnum hfit
  exact ⟨smis, files, F, a1, a2, fun x hx => (a6 x hx).1, a5, fun h1 h2 fdx fdt h3 =>
    ⟨a4, hsi, fun f hf y hy p hp => (a6 f hf).2 y hy p hp, a3, h1, h2, h3, fun _ => rfl⟩⟩

/-! ### A case that meets the hypotheses -/

/-- Two segments: in the first document 7 is deleted, in the second all documents are deleted but one. -/
def src27a : Source := ⟨2, 3, seg22, 10, fun d => d == 7⟩
def src27b : Source := ⟨2, 3, [(0, [([99], [⟨1, 1, [4]⟩])]), (1, [([97], [⟨0, 1, [5]⟩, ⟨1, 2, [6, 8]⟩])])], 2, fun d => d == 0⟩

theorem deletes_one (n : Nat) : ∃ bv, BitVector.set BitVector.new n = .ok bv ∧ Deletes (some bv) (fun d => d == n) := by
  obtain ⟨bv, e, w, -, -, -, -, b, -⟩ := BitVector.setValue_ok BitVector.new n true (BitVector.wf_newCapa 256)
  refine ⟨bv, e, fun d => ?_⟩
  show BitVector.get bv (d : Int) = _
  rw [BitVector.get_ok bv d w, b]
  by_cases h : d = n
  · simp [h]
  · rw [if_neg h]
    rw [show BitVector.bitAt BitVector.new.bits BitVector.new.ext d = false from BitVector.bitAt_replicate_zero _ _]
    simp [h]

theorem flushed27a : ∃ fs, flush 2 3 seg22 = .ok fs ∧ fs.dict.tis.length < 2 ^ 64 ∧ fs.dict.tix.length < 2 ^ 64 :=
  ⟨_, rfl, by decide +kernel, by decide +kernel⟩

theorem files27a : ∃ x, src27a.Files x := by
  obtain ⟨fs, e1, e2, e3⟩ := flushed27a
  obtain ⟨bv, -, hbv⟩ := deletes_one 7
  refine ⟨⟨fs, List.replicate 120 0, [], some bv⟩, ?_, by decide, by decide +kernel, e1, e2, e3, rfl, hbv⟩
  constructor <;> try decide +kernel
  intro x hx y hy
  obtain rfl := List.mem_singleton.1 hx
  rcases List.mem_cons.1 hy with rfl | hy
  · constructor <;> decide +kernel
  · obtain rfl := List.mem_singleton.1 hy
    constructor <;> decide +kernel

theorem flushed27b : ∃ fs, flush 2 3 src27b.fields = .ok fs ∧ fs.dict.tis.length < 2 ^ 64 ∧ fs.dict.tix.length < 2 ^ 64 :=
  ⟨_, rfl, by decide +kernel, by decide +kernel⟩

theorem files27b : ∃ x, src27b.Files x := by
  obtain ⟨fs, e1, e2, e3⟩ := flushed27b
  obtain ⟨bv, -, hbv⟩ := deletes_one 0
  refine ⟨⟨fs, List.replicate 24 0, [], some bv⟩, ?_, by decide, by decide +kernel, e1, e2, e3, rfl, hbv⟩
  constructor <;> try decide +kernel
  intro x hx y hy
  rcases List.mem_cons.1 hx with rfl | hx
  · obtain rfl := List.mem_singleton.1 hy
    constructor <;> decide +kernel
  · obtain rfl := List.mem_singleton.1 hx
    obtain rfl := List.mem_singleton.1 hy
    constructor <;> decide +kernel

theorem postings_occs_le (s : Source) (f : Int) (t : Term) :
    (((postingsOf s.fields f t).getD []).map fun p => p.occ.length).sum ≤ (s.fields.map fun x => (x.2.map fun y => (y.2.map fun p => p.occ.length).sum).sum).sum := by
  cases h : postingsOf s.fields f t with
  | none => exact Nat.zero_le _
  | some ps =>
    obtain ⟨x, hx, -, hy⟩ := postingsOf_mem27 h
    have h1 := le_sum_of_mem (f := fun x : Nat × List (Term × List Posting) => (x.2.map fun y => (y.2.map fun p => p.occ.length).sum).sum) hx
    have h2 := le_sum_of_mem (f := fun y : Term × List Posting => (y.2.map fun p => p.occ.length).sum) hy
    exact Nat.le_trans h2 h1

theorem fit27 : Fit [src27a, src27b] := by
  refine ⟨by decide +kernel, fun f t => ?_, by decide +kernel, by decide +kernel, by decide +kernel⟩
  exact Nat.lt_of_le_of_lt (Nat.le_trans (mergedPostings_occs 0 _ f t) (sum_le_sum fun s _ => postings_occs_le s f t)) (by decide +kernel)

example : ∃ x y smis files, src27a.Files x ∧ src27b.Files y ∧ smCreate 0 [x, y] = .ok (smis, 10) ∧ mergeTerms 2 3 2 smis = .ok files := by
  obtain ⟨x, hx⟩ := files27a
  obtain ⟨y, hy⟩ := files27b
  obtain ⟨smis, files, F, a1, a2, -⟩ := c27_terms [(src27a, x), (src27b, y)] (by simp [hx, hy]) 2 3 2 (by decide) (by decide) (by decide) (by decide) (by decide)
    (by
      intro z hz
      rcases List.mem_cons.1 hz with rfl | hz
      · show ∀ f ∈ seg22, f.1 < 2
        decide
      · obtain rfl := List.mem_singleton.1 hz
        show ∀ f ∈ src27b.fields, f.1 < 2
        decide) fit27
  exact ⟨x, y, smis, files, hx, hy, a1, a2⟩

/-- What the merged segment then has: document 8 of the first segment is its document 7, document 1 of the second is its
document 9; the only document of `b` stays. -/
example : mergedPostings 0 [src27a, src27b] 1 [97] = [⟨0, 2, [0, 300]⟩, ⟨1, 2, [1, 301]⟩, ⟨2, 2, [2, 302]⟩, ⟨3, 2, [3, 303]⟩, ⟨4, 2, [4, 304]⟩, ⟨5, 2, [5, 305]⟩,
      ⟨6, 2, [6, 306]⟩, ⟨7, 2, [8, 308]⟩, ⟨8, 2, [9, 309]⟩, ⟨9, 2, [6, 8]⟩] ∧
    mergedPostings 0 [src27a, src27b] 1 [98] = [⟨4, 1, [7]⟩] ∧ mergedPostings 0 [src27a, src27b] 0 [99] = [⟨9, 1, [4]⟩] ∧ mergedPostings 0 [src27a, src27b] 0 [97] = [] := by
  decide +kernel

/-- The three documents of C18. -/
theorem stored27 : ∃ w, Fields.run plusOne (Fields.fwOpen sampleTable) sampleEvents = .ok w ∧ w.fdx.length = 12 * 3 ∧ w.fdt.length < 2 ^ 31 :=
  ⟨_, rfl, by decide +kernel, by decide +kernel⟩

/-- Segments of three documents without terms. -/
def src27c (dead : Nat → Bool) : Source := ⟨2, 3, [], 3, dead⟩

theorem segment_nil : Segment 2 3 [] := by
  constructor <;> simp

/-- Documents with stored fields: the second of the first segment is deleted. -/
example : ∃ x y smis fdx fdt, ((src27c fun d => d == 1).Files x ∧ StoredIn plusOne (Fields.tableAfter sampleTable sampleEvents) (Fields.docsOf sampleEvents) x) ∧
    ((src27c fun _ => false).Files y ∧ StoredIn plusOne (Fields.tableAfter sampleTable sampleEvents) (Fields.docsOf sampleEvents) y) ∧
    smCreate 0 [x, y] = .ok (smis, 5) ∧ mergeFields smis ([], []) = .ok (fdx, fdt) := by
  obtain ⟨bv, -, hbv⟩ := deletes_one 1
  obtain ⟨w, e1, e2, e3⟩ := stored27
  obtain ⟨fs, f1, f2, f3⟩ : ∃ fs, flush 2 3 [] = .ok fs ∧ fs.dict.tis.length < 2 ^ 64 ∧ fs.dict.tix.length < 2 ^ 64 := ⟨_, rfl, by decide, by decide⟩
  have hwf : Fis.WF sampleTable := (Fis.fisNew_wf (s := 1) (i := 3) (v := 0) rfl).1
  have hst : ∀ del, StoredIn plusOne (Fields.tableAfter sampleTable sampleEvents) (Fields.docsOf sampleEvents) ⟨fs, w.fdx, w.fdt, del⟩ := fun del =>
    ⟨⟨_, _, w, hwf, sampleEvents_good, Fields.Within.refl _, e1, rfl, rfl, rfl⟩, by show w.fdt.length < 2 ^ 64; omega⟩
  have h1 : (src27c fun d => d == 1).Files ⟨fs, w.fdx, w.fdt, some bv⟩ := ⟨segment_nil, by decide, (fun f hf => nomatch hf), f1, f2, f3, e2, hbv⟩
  have h2 : (src27c fun _ => false).Files ⟨fs, w.fdx, w.fdt, none⟩ := ⟨segment_nil, by decide, (fun f hf => nomatch hf), f1, f2, f3, e2, fun _ => rfl⟩
  obtain ⟨smis, w', a1, a2, -⟩ := c27_fields plusOne plusOne_lawful _ (Fields.tableAfter_spec sampleEvents sampleTable hwf).1
    [((src27c fun d => d == 1, ⟨fs, w.fdx, w.fdt, some bv⟩), Fields.docsOf sampleEvents), ((src27c fun _ => false, ⟨fs, w.fdx, w.fdt, none⟩), Fields.docsOf sampleEvents)]
    (by
      intro x hx
      rcases List.mem_cons.1 hx with rfl | hx
      · exact ⟨h1, hst _⟩
      · obtain rfl := List.mem_singleton.1 hx
        exact ⟨h2, hst _⟩)
  exact ⟨_, _, smis, w'.fdx, w'.fdt, ⟨h1, hst _⟩, ⟨h2, hst _⟩, a1, a2⟩

/-- Terms that are short enough for the buffer. -/
example : ∀ k, (((dict20.flatMap fun f => f.2.map fun e => e.1.length + 1).drop k).take (2 + 2)).sum ≤ (2 + 1) * 255 := by
  intro k
  by_cases h : k < 5
  · revert k
    decide
  · rw [List.drop_eq_nil_of_le (by show 5 ≤ k; omega)]
    decide

#print axioms c27_terms
#print axioms c27_session_partial
#print axioms c27_again
#print axioms c27_fields
#print axioms c27_read
#print axioms c27_norms
#print axioms c27_buffer_partial
#print axioms c27_buffer_usual
#print axioms c27_buffer_wrong
end Ferret.Props
