import Verif.Model.Writer

namespace Ferret.Writer
open Ferret Ferret.Spec

variable {α : Type}

/-- All documents of segments. -/
def total (segs : List (Seg α)) : Nat := (segs.map Seg.cnt).sum

theorem total_append (a b : List (Seg α)) : total (a ++ b) = total a + total b := by simp [total]

theorem live_le (s : Seg α) : s.live.length ≤ s.cnt := by
  unfold Seg.live Seg.cnt
  rw [List.length_map]
  exact List.length_filter_le _ _

theorem live_total (l : List (Seg α)) : (l.flatMap Seg.live).length ≤ total l := by
  induction l with
  | nil => simp [total]
  | cons s l ih =>
    have := live_le s
    simp only [List.flatMap_cons, List.length_append, total, List.map_cons, List.sum_cons] at ih ⊢
    omega

theorem live_fresh (l : List α) (a b c d : Bool) : (Seg.mk (l.map fun d => (d, false)) a b c d).live = l := by
  unfold Seg.live
  induction l with
  | nil => rfl
  | cons x xs ih => simpa using ih

theorem live_mem {s : Seg α} {d : α} (h : d ∈ s.live) : ∃ x ∈ s.docs, x.1 = d := by
  unfold Seg.live at h
  obtain ⟨x, hx, rfl⟩ := List.mem_map.1 h
  exact ⟨x, (List.mem_filter.1 hx).1, rfl⟩

/-- The documents of segments have fields only among these. -/
def FieldsIn (D : Docs α) (segs : List (Seg α)) (fs : List (List Byte)) : Prop :=
  ∀ s ∈ segs, ∀ x ∈ s.docs, ∀ f ∈ D.fields x.1, f ∈ fs

/-- A writer with no segment open. -/
structure Closed (D : Docs α) (w : W α) : Prop where
  segs : w.segs = w.disk
  files : ∀ s ∈ w.disk, s.files = true
  fields : FieldsIn D w.disk w.fields
  diskFields : FieldsIn D w.disk w.diskFields

/-- What merging leaves as it is. -/
structure Same (w w' : W α) : Prop where
  live : w'.disk.flatMap Seg.live = w.disk.flatMap Seg.live
  dw : w'.dw = w.dw
  cfg : w'.cfg = w.cfg
  fields : w'.fields = w.fields
  total : total w'.disk ≤ total w.disk

theorem Same.trans {a b c : W α} (h : Same a b) (k : Same b c) : Same a c :=
  ⟨k.live.trans h.live, k.dw.trans h.dw, k.cfg.trans h.cfg, k.fields.trans h.fields, Nat.le_trans k.total h.total⟩

theorem Same.rfl' (a : W α) : Same a a := ⟨rfl, rfl, rfl, rfl, Nat.le_refl _⟩

theorem mergeFrom_ok {D : Docs α} {w : W α} (h : Closed D w) {min : Int} (h0 : 0 ≤ min) (h1 : min < w.segs.length) :
    ∃ w', mergeFrom w min = .ok w' ∧ Closed D w' ∧ Same w w' ∧ w'.segs.length = min.toNat + 1 ∧
      (∀ s, w'.segs.getLast? = some s → s.hasDel = false ∧ s.compound = w.cfg.compound ∧ s.sepNorms = false ∧
        s.docs = ((w.segs.drop min.toNat).flatMap Seg.live).map fun d => (d, false)) := by
  unfold mergeFrom
  rw [if_neg (by omega)]
  have hall : (w.segs.drop min.toNat).all (·.files) = true := by
    rw [List.all_eq_true]
    intro s hs
    rw [h.segs] at hs
    exact h.files s (List.mem_of_mem_drop hs)
  dsimp only
  rw [if_pos hall]
  have hsplit : w.disk = w.segs.take min.toNat ++ w.segs.drop min.toNat := by rw [List.take_append_drop, h.segs]
  refine ⟨_, rfl, ?_, ?_, ?_, ?_⟩
  · have hf : FieldsIn D (w.segs.take min.toNat ++ [⟨((w.segs.drop min.toNat).flatMap Seg.live).map fun d => (d, false), false,
        w.cfg.compound, false, true⟩]) w.fields := by
      intro s hs x hx f hf
      rcases List.mem_append.1 hs with hs | hs
      · rw [h.segs] at hs
        exact h.fields s (List.mem_of_mem_take hs) x hx f hf
      · rw [List.mem_singleton] at hs
        subst hs
        dsimp only at hx
        obtain ⟨d, hd, rfl⟩ := List.mem_map.1 hx
        obtain ⟨s, hs, hd⟩ := List.mem_flatMap.1 hd
        obtain ⟨y, hy, rfl⟩ := live_mem hd
        rw [h.segs] at hs
        exact h.fields s (List.mem_of_mem_drop hs) y hy f hf
    refine ⟨rfl, ?_, hf, hf⟩
    intro s hs
    rcases List.mem_append.1 hs with hs | hs
    · rw [h.segs] at hs
      exact h.files s (List.mem_of_mem_take hs)
    · rw [List.mem_singleton] at hs
      subst hs
      rfl
  · refine ⟨?_, rfl, rfl, rfl, ?_⟩
    · show (w.segs.take min.toNat ++ [_]).flatMap Seg.live = _
      rw [hsplit, List.flatMap_append, List.flatMap_append, List.flatMap_cons, List.flatMap_nil, List.append_nil, live_fresh]
    · show total (w.segs.take min.toNat ++ [_]) ≤ _
      rw [hsplit, total_append, total_append]
      have := live_total (w.segs.drop min.toNat)
      simp only [total, List.map_cons, List.map_nil, List.sum_cons, List.sum_nil, Seg.cnt, List.length_map] at this ⊢
      omega
  · show (w.segs.take min.toNat ++ [_]).length = _
    rw [List.length_append, List.length_take]
    simp only [List.length_cons, List.length_nil]
    omega
  · intro s hs
    have : (w.segs.take min.toNat ++ [(⟨((w.segs.drop min.toNat).flatMap Seg.live).map fun d => (d, false), false,
        w.cfg.compound, false, true⟩ : Seg α)]).getLast? = some s := hs
    rw [List.getLast?_append] at this
    simp only [List.getLast?_singleton, Option.some_or, Option.some.injEq] at this
    subst this
    exact ⟨rfl, rfl, rfl, rfl⟩

theorem scan_spec (T : Int) : ∀ (rs : List (Seg α)) (d : Int), -1 ≤ (scan T rs d).1 ∧ (scan T rs d).1 + 1 ≤ rs.length ∧
    (scan T rs d).2 ≤ d + total rs ∧ (0 ≤ (scan T rs d).1 → T ≤ total rs) ∧ ((scan T rs d).1 + 1 = rs.length → (scan T rs d).2 = d) := by
  intro rs
  induction rs with
  | nil => intro d; simp [scan, total]
  | cons s rest ih =>
    intro d
    unfold scan
    have ht : total (s :: rest) = s.cnt + total rest := by simp [total]
    split
    · rename_i h
      simp only [List.length_cons]
      refine ⟨by omega, by omega, by omega, fun _ => by omega, by simp⟩
    · obtain ⟨h1, h2, h3, h4, h5⟩ := ih (d + s.cnt)
      simp only [List.length_cons]
      refine ⟨h1, by omega, by omega, fun h => by have := h4 h; omega, fun h => ?_⟩
      omega

theorem total_reverse (l : List (Seg α)) : total l.reverse = total l := by
  induction l with
  | nil => rfl
  | cons s l ih => rw [List.reverse_cons, total_append, ih]; simp [total]; omega

theorem maybeLoop_ok {D : Docs α} {K N : Nat} (hNK : (N * K : Int) ≤ intMax) : ∀ (k : Nat) (w : W α) (T : Int), Closed D w →
    GoodCfg K w.cfg → total w.disk ≤ N → 1 ≤ T → intMax < T * 2 ^ k →
    ∃ w', (∀ n, k < n → maybeLoop n w T = some (.ok w')) ∧ Closed D w' ∧ Same w w' := by
  intro k
  induction k with
  | zero =>
    intro w T h hc _ _ hT
    refine ⟨w, ?_, h, Same.rfl' w⟩
    intro n hn
    obtain ⟨n, rfl⟩ : ∃ m, n = m + 1 := ⟨n - 1, by omega⟩
    unfold maybeLoop
    rw [if_neg]
    intro ⟨_, hm⟩
    have := hc.2.2.2
    simp only [Int.pow_zero, Int.mul_one] at hT
    omega
  | succ k ih =>
    intro w T h hc hN h1 hT
    by_cases hin : T > 0 ∧ T ≤ w.cfg.maxMergeDocs
    · obtain ⟨s1, s2, s3, s4, s5⟩ := scan_spec T w.segs.reverse 0
      rw [total_reverse, List.length_reverse, h.segs] at *
      have hgrow : ∀ w' : W α, w'.cfg = w.cfg → T ≤ N → ¬ (T * w'.cfg.mergeFactor > intMax) ∧ 1 ≤ T * w'.cfg.mergeFactor ∧
          intMax < T * w'.cfg.mergeFactor * 2 ^ k := by
        intro w' hcfg hTN
        rw [hcfg]
        obtain ⟨c1, c2, _, _⟩ := hc
        have e1 : T * w.cfg.mergeFactor ≤ N * K := Int.mul_le_mul hTN c2 (by omega) (by omega)
        have e2 : T * 2 ≤ T * w.cfg.mergeFactor := Int.mul_le_mul_of_nonneg_left c1 (by omega)
        have e3 : T * 2 * 2 ^ k ≤ T * w.cfg.mergeFactor * 2 ^ k := Int.mul_le_mul_of_nonneg_right e2 (Int.pow_nonneg (by omega))
        have e4 : T * 2 ^ (k + 1) = T * 2 * 2 ^ k := by rw [Int.pow_succ, Int.mul_assoc, Int.mul_comm (2 ^ k)]
        omega
      by_cases hd : (scan T w.disk.reverse 0).2 ≥ T
      · obtain ⟨w1, m1, m2, m3, _⟩ := mergeFrom_ok h (min := (scan T w.disk.reverse 0).1 + 1) (by omega) (by
          rw [h.segs]
          rcases Int.lt_or_eq_of_le s2 with hlt | heq
          · exact hlt
          · have := s5 heq; omega)
        obtain ⟨g1, g2, g3⟩ := hgrow w1 m3.cfg (by omega)
        obtain ⟨w2, r1, r2, r3⟩ := ih w1 _ m2 (m3.cfg ▸ hc) (Nat.le_trans m3.total hN) g2 g3
        refine ⟨w2, ?_, r2, m3.trans r3⟩
        intro n hn
        obtain ⟨n, rfl⟩ : ∃ m, n = m + 1 := ⟨n - 1, by omega⟩
        unfold maybeLoop
        rw [if_pos hin]
        dsimp only
        rw [h.segs, if_pos hd, m1]
        dsimp only
        rw [if_neg g1]
        exact r1 n (by omega)
      · by_cases hm : (scan T w.disk.reverse 0).1 ≤ 0
        · refine ⟨w, ?_, h, Same.rfl' w⟩
          intro n hn
          obtain ⟨n, rfl⟩ : ∃ m, n = m + 1 := ⟨n - 1, by omega⟩
          unfold maybeLoop
          rw [if_pos hin]
          dsimp only
          rw [h.segs, if_neg hd, if_pos hm]
        · have hTt := s4 (by omega)
          obtain ⟨g1, g2, g3⟩ := hgrow w rfl (by omega)
          obtain ⟨w2, r1, r2, r3⟩ := ih w _ h hc hN g2 g3
          refine ⟨w2, ?_, r2, r3⟩
          intro n hn
          obtain ⟨n, rfl⟩ : ∃ m, n = m + 1 := ⟨n - 1, by omega⟩
          unfold maybeLoop
          rw [if_pos hin]
          dsimp only
          rw [h.segs, if_neg hd, if_neg hm, if_neg g1]
          exact r1 n (by omega)
    · refine ⟨w, ?_, h, Same.rfl' w⟩
      intro n hn
      obtain ⟨n, rfl⟩ : ∃ m, n = m + 1 := ⟨n - 1, by omega⟩
      unfold maybeLoop
      rw [if_neg hin]

theorem maybeMerge_ok {D : Docs α} {K N : Nat} (hNK : (N * K : Int) ≤ intMax) (w : W α) (h : Closed D w)
    (hc : GoodCfg K w.cfg) (hN : total w.disk ≤ N) :
    ∃ w', (∀ n, 31 < n → maybeMerge n w = some (.ok w')) ∧ Closed D w' ∧ Same w w' := by
  refine maybeLoop_ok hNK 31 w w.cfg.mergeFactor h hc hN (by have := hc.1; omega) ?_
  have := hc.1
  have e : (2 : Int) ^ 31 = 2147483648 := by decide
  rw [e]
  unfold intMax
  omega

/-- The buffered documents. -/
def buf (w : W α) : List α := match w.dw with | none => [] | some dw => dw.docs

/-- A segment is open. -/
def dwOpen (w : W α) : Bool := match w.dw with | none => false | some dw => dw.isOpen

/-- A writer between calls. -/
structure Ok (D : Docs α) (K N : Nat) (w : W α) : Prop where
  segs : w.segs = w.disk ++ if dwOpen w then [newSeg] else []
  files : ∀ s ∈ w.disk, s.files = true
  fields : FieldsIn D w.disk w.fields
  diskFields : FieldsIn D w.disk w.diskFields
  bufFields : ∀ d ∈ buf w, ∀ f ∈ D.fields d, f ∈ w.fields
  shut : dwOpen w = false → buf w = []
  capa : ∀ dw, w.dw = some dw → (dw.docs.length : Int) < dw.capa ∧ w.cfg.maxBufferedDocs ≤ dw.capa
  cfg : GoodCfg K w.cfg
  total : total w.disk + (buf w).length ≤ N

theorem Ok.closed {D : Docs α} {K N : Nat} {w : W α} (h : Ok D K N w) (ho : dwOpen w = false) : Closed D w :=
  ⟨by rw [h.segs, ho]; simp, h.files, h.fields, h.diskFields⟩

/-- All that is in the index or will be. -/
def all (w : W α) : List α := w.disk.flatMap Seg.live ++ buf w

theorem flush_ok {D : Docs α} {K N : Nat} (hNK : (N * K : Int) ≤ intMax) (w : W α) (dw : Dw α) (pre : List (Seg α))
    (hs : w.segs = pre ++ [newSeg]) (hd : w.disk = pre) (files : ∀ s ∈ w.disk, s.files = true)
    (fields : FieldsIn D w.disk w.fields) (hf : ∀ d ∈ dw.docs, ∀ f ∈ D.fields d, f ∈ w.fields)
    (hcapa : 1 ≤ dw.capa ∧ w.cfg.maxBufferedDocs ≤ dw.capa) (hc : GoodCfg K w.cfg) (hN : total w.disk + dw.docs.length ≤ N) :
    ∃ w', (∀ n, 31 < n → flush n w dw = some (.ok w')) ∧ Ok D K N w' ∧ dwOpen w' = false ∧ w'.cfg = w.cfg ∧ w'.fields = w.fields ∧
      w'.disk.flatMap Seg.live = w.disk.flatMap Seg.live ++ dw.docs := by
  unfold flush
  rw [hs]
  simp only [List.getLast?_append, List.getLast?_singleton, Option.some_or, List.dropLast_concat]
  have hfi : FieldsIn D (pre ++ [⟨dw.docs.map fun d => (d, false), false, w.cfg.compound, false, true⟩]) w.fields := by
    intro s hs x hx f hxf
    rcases List.mem_append.1 hs with hs | hs
    · exact fields s (hd ▸ hs) x hx f hxf
    · rw [List.mem_singleton] at hs
      subst hs
      dsimp only at hx
      obtain ⟨d, hd, rfl⟩ := List.mem_map.1 hx
      exact hf d hd f hxf
  have htot : total (pre ++ [⟨dw.docs.map fun d => (d, false), false, w.cfg.compound, false, true⟩]) ≤ N := by
    rw [total_append, ← hd]
    simp only [total, List.map_cons, List.map_nil, List.sum_cons, List.sum_nil, Seg.cnt, List.length_map] at hN ⊢
    omega
  obtain ⟨w', r1, r2, r3⟩ := maybeMerge_ok (D := D) hNK (sisWrite { w with
      segs := pre ++ [⟨dw.docs.map fun d => (d, false), false, w.cfg.compound, false, true⟩],
      dw := some { dw with isOpen := false, docs := [] } })
    ⟨rfl, by
      intro s hs
      rcases List.mem_append.1 hs with hs | hs
      · exact files s (hd ▸ hs)
      · rw [List.mem_singleton] at hs
        subst hs
        rfl, hfi, hfi⟩ hc htot
  have hdw : w'.dw = some { dw with isOpen := false, docs := [] } := r3.dw
  have hbuf : buf w' = [] := by unfold buf; rw [hdw]
  have hopen : dwOpen w' = false := by unfold dwOpen; rw [hdw]
  refine ⟨w', r1, ?_, hopen, r3.cfg, r3.fields, ?_⟩
  · refine ⟨by rw [hopen, r2.segs]; simp, r2.files, r2.fields, r2.diskFields, by simp [hbuf], fun _ => hbuf, ?_, r3.cfg ▸ hc, ?_⟩
    · intro dw' e
      rw [hdw, Option.some.injEq] at e
      subst e
      rw [r3.cfg]
      exact ⟨by simp only [List.length_nil]; omega, hcapa.2⟩
    · rw [hbuf]
      exact Nat.le_trans r3.total htot
  · rw [r3.live]
    show (pre ++ [_]).flatMap Seg.live = _
    rw [List.flatMap_append, List.flatMap_cons, List.flatMap_nil, List.append_nil, live_fresh, hd]

theorem commit_ok {D : Docs α} {K N : Nat} (hNK : (N * K : Int) ≤ intMax) (w : W α) (h : Ok D K N w) :
    ∃ w', (∀ n, 31 < n → commit n w = some (.ok w')) ∧ Ok D K N w' ∧ w'.cfg = w.cfg ∧ w'.fields = w.fields ∧ buf w' = [] ∧
      w'.disk.flatMap Seg.live = all w ∧ (dwOpen w = true → buf w ≠ [] → dwOpen w' = false) ∧ (buf w = [] → w' = w) := by
  unfold commit
  cases hdw : w.dw with
  | none =>
    have hb : buf w = [] := by unfold buf; rw [hdw]
    exact ⟨w, fun _ _ => rfl, h, rfl, rfl, hb, by unfold all; rw [hb, List.append_nil], fun _ hne => absurd hb hne, fun _ => rfl⟩
  | some dw =>
    have hb : buf w = dw.docs := by unfold buf; rw [hdw]
    by_cases hl : dw.docs.length > 0
    · have ho : dwOpen w = true := by
        cases ho : dwOpen w with
        | true => rfl
        | false =>
          have := h.shut ho
          rw [hb] at this
          rw [this] at hl
          exact absurd hl (by simp)
      have hcp := h.capa dw hdw
      have hsegs := h.segs
      rw [ho] at hsegs
      obtain ⟨w', r1, r2, r3, r4, r5, r6⟩ := flush_ok hNK w dw w.disk hsegs rfl h.files h.fields (hb ▸ h.bufFields)
        ⟨by omega, hcp.2⟩ h.cfg (hb ▸ h.total)
      refine ⟨w', ?_, r2, r4, r5, r2.shut r3, by unfold all; rw [hb]; exact r6, fun _ _ => r3, fun hn => ?_⟩
      · intro n hn
        dsimp only
        rw [if_pos hl]
        exact r1 n hn
      · rw [hb] at hn
        rw [hn] at hl
        exact absurd hl (by simp)
    · have hb' : dw.docs = [] := List.length_eq_zero_iff.1 (by omega)
      refine ⟨w, ?_, h, rfl, rfl, hb.trans hb', by unfold all; rw [hb, hb', List.append_nil], fun _ hne => absurd (hb.trans hb') hne, fun _ => rfl⟩
      intro n hn
      dsimp only
      rw [if_neg hl]

/-- With a document in every open segment. -/
structure Ok' (D : Docs α) (K N : Nat) (w : W α) : Prop extends Ok D K N w where
  some : dwOpen w = true → buf w ≠ []

theorem commit_ok' {D : Docs α} {K N : Nat} (hNK : (N * K : Int) ≤ intMax) (w : W α) (h : Ok' D K N w) :
    ∃ w', (∀ n, 31 < n → commit n w = some (.ok w')) ∧ Ok' D K N w' ∧ w'.cfg = w.cfg ∧ w'.fields = w.fields ∧ buf w' = [] ∧
      w'.disk.flatMap Seg.live = all w ∧ dwOpen w' = false := by
  obtain ⟨w', r1, r2, r3, r4, r5, r6, r7, r8⟩ := commit_ok hNK w h.toOk
  have ho : dwOpen w' = false := by
    by_cases hb : buf w = []
    · rw [r8 hb]
      cases ho : dwOpen w with
      | false => rfl
      | true => exact absurd hb (h.some ho)
    · refine r7 ?_ hb
      cases ho : dwOpen w with
      | true => rfl
      | false => exact absurd (h.shut ho) hb
  exact ⟨w', r1, ⟨r2, fun h => by rw [ho] at h; cases h⟩, r3, r4, r5, r6, ho⟩

theorem addDoc_ok {D : Docs α} {K N : Nat} (hNK : (N * K : Int) ≤ intMax) (w : W α) (h : Ok' D K N w) (d : α) (full : Bool)
    (hN : total w.disk + (buf w).length + 1 ≤ N) :
    ∃ w', (∀ n, 31 < n → addDoc D n w d full = some (.ok w')) ∧ Ok' D K N w' ∧ w'.cfg = w.cfg ∧ all w' = all w ++ [d] ∧
      (w'.disk.flatMap Seg.live = w.disk.flatMap Seg.live ∨ w'.disk.flatMap Seg.live = all w ++ [d]) := by
  -- the writer and the document writer with a segment open
  have hopen : ∃ (w1 : W α) (dw : Dw α), openSeg w = (w1, dw) ∧
      w1.segs = w.disk ++ [newSeg] ∧ w1.disk = w.disk ∧ w1.cfg = w.cfg ∧ w1.fields = w.fields ∧ w1.diskFields = w.diskFields ∧
      dw.isOpen = true ∧ dw.docs = buf w ∧ (dw.docs.length : Int) < dw.capa ∧ w.cfg.maxBufferedDocs ≤ dw.capa := by
    unfold openSeg
    cases hdw : w.dw with
    | none =>
      have ho : dwOpen w = false := by unfold dwOpen; rw [hdw]
      have hs := h.segs
      rw [ho] at hs
      refine ⟨_, _, rfl, by simp [hs], rfl, rfl, rfl, rfl, rfl, by unfold buf; rw [hdw], ?_, Int.le_refl _⟩
      have := h.cfg.2.2.1
      simp only [List.length_nil]
      omega
    | some dw =>
      have hb : buf w = dw.docs := by unfold buf; rw [hdw]
      have hc := h.capa dw hdw
      have hs := h.segs
      cases ho : dw.isOpen with
      | true =>
        have hoo : dwOpen w = true := by unfold dwOpen; rw [hdw]; exact ho
        rw [hoo] at hs
        exact ⟨w, dw, if_pos ho, hs, rfl, rfl, rfl, rfl, ho, hb.symm, hc.1, hc.2⟩
      | false =>
        have hoo : dwOpen w = false := by unfold dwOpen; rw [hdw]; exact ho
        rw [hoo] at hs
        exact ⟨_, _, if_neg (by simp [ho]), by simp [hs], rfl, rfl, rfl, rfl, rfl, hb.symm, hc.1, hc.2⟩
  obtain ⟨w1, dw, e, e1, e2, e3, e4, e5, e6, e7, e8, e9⟩ := hopen
  have hcall : ∀ n, addDoc D n w d full = if full = true ∨ ((dw.docs ++ [d]).length : Int) ≥ w1.cfg.maxBufferedDocs then
      flush n { w1 with fields := w1.fields ++ D.fields d, dw := some { dw with docs := dw.docs ++ [d] } } { dw with docs := dw.docs ++ [d] }
      else some (.ok { w1 with fields := w1.fields ++ D.fields d, dw := some { dw with docs := dw.docs ++ [d] } }) := by
    intro n
    unfold addDoc
    dsimp only
    rw [e]
    dsimp only
    rw [if_neg (by intro ⟨_, hn⟩; exact hn e8)]
  have hfi : ∀ segs, FieldsIn D segs w.fields → FieldsIn D segs (w1.fields ++ D.fields d) := by
    intro segs hf s hs x hx f hxf
    rw [e4]
    exact List.mem_append_left _ (hf s hs x hx f hxf)
  have hbf : ∀ x ∈ dw.docs ++ [d], ∀ f ∈ D.fields x, f ∈ w1.fields ++ D.fields d := by
    intro x hx f hf
    rcases List.mem_append.1 hx with hx | hx
    · rw [e4]; exact List.mem_append_left _ (h.bufFields x (e7 ▸ hx) f hf)
    · rw [List.mem_singleton] at hx
      subst hx
      exact List.mem_append_right _ hf
  by_cases hflush : full = true ∨ ((dw.docs ++ [d]).length : Int) ≥ w1.cfg.maxBufferedDocs
  · obtain ⟨w', r1, r2, r3, r4, r5, r6⟩ := flush_ok (D := D) hNK
      { w1 with fields := w1.fields ++ D.fields d, dw := some { dw with docs := dw.docs ++ [d] } } { dw with docs := dw.docs ++ [d] }
      w.disk e1 e2 (fun s hs => h.files s (e2 ▸ hs)) (e2.symm ▸ hfi _ h.fields) hbf (by show 1 ≤ dw.capa ∧ w1.cfg.maxBufferedDocs ≤ dw.capa; rw [e3]; exact ⟨by omega, e9⟩) (e3.symm ▸ h.cfg) (by
        show total w1.disk + (dw.docs ++ [d]).length ≤ N
        rw [e2, e7]
        simp only [List.length_append, List.length_cons, List.length_nil]
        omega)
    have hlive : w'.disk.flatMap Seg.live = all w ++ [d] := by
      rw [r6]
      show w1.disk.flatMap Seg.live ++ (dw.docs ++ [d]) = _
      rw [e2, e7]
      unfold all
      rw [List.append_assoc]
    have hbe := r2.shut r3
    refine ⟨w', ?_, ⟨r2, fun hc => by rw [r3] at hc; cases hc⟩, r4.trans e3, ?_, .inr hlive⟩
    · intro n hn
      rw [hcall, if_pos hflush]
      exact r1 n hn
    · unfold all
      rw [hlive, hbe, List.append_nil]
      rfl
  · refine ⟨{ w1 with fields := w1.fields ++ D.fields d, dw := some { dw with docs := dw.docs ++ [d] } }, ?_, ⟨⟨?_, ?_, ?_, ?_, ?_, ?_, ?_, ?_, ?_⟩, ?_⟩, e3, ?_, .inl (by rw [e2])⟩
    · intro n hn
      rw [hcall, if_neg hflush]
    · show w1.segs = w1.disk ++ if dw.isOpen = true then [newSeg] else []
      rw [e1, e2, e6]
      rfl
    · exact fun s hs => h.files s (e2 ▸ hs)
    · exact e2.symm ▸ hfi _ h.fields
    · intro s hs x hx f hxf
      show f ∈ w1.diskFields
      rw [e5]
      exact h.diskFields s (e2 ▸ hs) x hx f hxf
    · exact hbf
    · intro ho
      have : dw.isOpen = false := ho
      rw [e6] at this
      cases this
    · intro dw' hdw'
      simp only [Option.some.injEq] at hdw'
      subst hdw'
      rw [not_or] at hflush
      have h2 := hflush.2
      rw [e3] at h2
      show ((dw.docs ++ [d]).length : Int) < dw.capa ∧ w1.cfg.maxBufferedDocs ≤ dw.capa
      rw [e3]
      omega
    · exact e3.symm ▸ h.cfg
    · show total w1.disk + (dw.docs ++ [d]).length ≤ N
      rw [e2, e7]
      simp only [List.length_append, List.length_cons, List.length_nil]
      omega
    · intro _ hb
      have : dw.docs ++ [d] = [] := hb
      simp at this
    · show w1.disk.flatMap Seg.live ++ (dw.docs ++ [d]) = all w ++ [d]
      rw [e2, e7]
      unfold all
      rw [List.append_assoc]

theorem Ok.mono {D : Docs α} {K N M : Nat} {w : W α} (h : Ok D K N w) (hm : Writer.total w.disk + (buf w).length ≤ M) : Ok D K M w :=
  { h with total := hm }

theorem Ok'.mono {D : Docs α} {K N M : Nat} {w : W α} (h : Ok' D K N w) (hm : Writer.total w.disk + (buf w).length ≤ M) : Ok' D K M w :=
  { h with total := hm }

theorem small {K N M : Nat} (h : (N * K : Int) ≤ intMax) (hm : M ≤ N) : (M * K : Int) ≤ intMax := by
  have : (M * K : Int) ≤ N * K := Int.mul_le_mul_of_nonneg_right (by omega) (by omega)
  omega

theorem live_deleteIn (p : α → Bool) (s : Seg α) : (deleteIn p s).live = s.live.filter fun d => !p d := by
  unfold Seg.live deleteIn
  dsimp only
  induction s.docs with
  | nil => rfl
  | cons x xs ih =>
    obtain ⟨d, b⟩ := x
    cases b <;> cases hp : p d <;> simp_all

theorem cnt_deleteIn (p : α → Bool) (s : Seg α) : (deleteIn p s).cnt = s.cnt := by simp [Seg.cnt, deleteIn]

theorem flatMap_filter (p : α → Bool) (l : List (Seg α)) :
    (l.map (deleteIn p)).flatMap Seg.live = (l.flatMap Seg.live).filter fun d => !p d := by
  induction l with
  | nil => rfl
  | cons s l ih => simp only [List.map_cons, List.flatMap_cons, List.filter_append, ih, live_deleteIn]

theorem total_deleteIn (p : α → Bool) (l : List (Seg α)) : total (l.map (deleteIn p)) = total l := by
  unfold total
  rw [List.map_map]
  congr 1
  apply List.map_congr_left
  intro s _
  exact cnt_deleteIn p s

theorem deleteIn_none {p : α → Bool} {s : Seg α} (h : ∀ d ∈ s.docs, (!d.2 && p d.1) = false) : deleteIn p s = s := by
  unfold deleteIn
  have e1 : (s.docs.any fun d => !d.2 && p d.1) = false := by
    rw [List.any_eq_false]
    intro d hd
    rw [h d hd]
    simp
  have e2 : s.docs.map (fun d => (d.1, d.2 || p d.1)) = s.docs := by
    conv => rhs; rw [← List.map_id s.docs]
    apply List.map_congr_left
    intro d hd
    have := h d hd
    obtain ⟨d, b⟩ := d
    cases b <;> simp_all
  rw [e1, e2]
  cases s
  simp

theorem filter_all {l : List α} {p : α → Bool} (h : ∀ d ∈ l, p d = false) : l.filter (fun d => !p d) = l := by
  rw [List.filter_eq_self]
  intro d hd
  rw [h d hd]
  rfl

theorem delete_ok {D : Docs α} {K N : Nat} (hNK : (N * K : Int) ≤ intMax) (w : W α) (h : Ok' D K N w) (f : List Byte) (p : α → Bool)
    (hp : ∀ d, p d = true → f ∈ D.fields d) :
    ∃ w', (∀ n, 31 < n → delete n w f p = some (.ok w')) ∧ Ok' D K N w' ∧ w'.cfg = w.cfg ∧ all w' = (all w).filter (fun d => !p d) ∧
      (w'.disk.flatMap Seg.live = w.disk.flatMap Seg.live ∨ w'.disk.flatMap Seg.live = all w') := by
  by_cases hf : f ∈ w.fields
  · obtain ⟨w1, r1, r2, r3, r4, r5, r6, r7⟩ := commit_ok' hNK w h
    have hc := r2.closed r7
    have hsf : w1.segs.all (·.files) = true := by
      rw [List.all_eq_true, hc.segs]
      exact fun s hs => hc.files s hs
    have hcall : ∀ n, 31 < n → delete n w f p = some (.ok (if w1.segs.any fun s => s.docs.any fun d => !d.2 && p d.1 then
        sisWrite { w1 with segs := w1.segs.map (deleteIn p) } else { w1 with segs := w1.segs.map (deleteIn p) })) := by
      intro n hn
      unfold delete
      rw [if_pos hf, r1 n hn]
      dsimp only
      rw [if_pos hsf]
    cases hany : (w1.segs.any fun s => s.docs.any fun d => !d.2 && p d.1) with
    | true =>
      have hfi : ∀ fs, FieldsIn D w1.disk fs → FieldsIn D (w1.segs.map (deleteIn p)) fs := by
        intro fs hfs s hs x hx f hf
        obtain ⟨s0, hs0, rfl⟩ := List.mem_map.1 hs
        unfold deleteIn at hx
        dsimp only at hx
        obtain ⟨y, hy, rfl⟩ := List.mem_map.1 hx
        exact hfs s0 (hc.segs ▸ hs0) y hy f hf
      have hbuf : buf (sisWrite { w1 with segs := w1.segs.map (deleteIn p) }) = [] := r5
      have hop : dwOpen (sisWrite { w1 with segs := w1.segs.map (deleteIn p) }) = false := r7
      have hlive : (w1.segs.map (deleteIn p)).flatMap Seg.live = (all w).filter fun d => !p d := by
        rw [flatMap_filter, hc.segs, r6]
      refine ⟨sisWrite { w1 with segs := w1.segs.map (deleteIn p) }, ?_, ⟨⟨?_, ?_, ?_, ?_, ?_, ?_, ?_, ?_, ?_⟩, ?_⟩, r3, ?_, .inr ?_⟩
      · intro n hn
        rw [hcall n hn, hany]
        rfl
      · rw [hop]
        simp [sisWrite]
      · intro s hs
        obtain ⟨s0, hs0, rfl⟩ := List.mem_map.1 hs
        exact hc.files s0 (hc.segs ▸ hs0)
      · exact hfi _ hc.fields
      · exact hfi _ hc.fields
      · rw [hbuf]; simp
      · exact fun _ => hbuf
      · exact r2.capa
      · exact r2.cfg
      · rw [hbuf]
        show total (w1.segs.map (deleteIn p)) + 0 ≤ N
        rw [total_deleteIn, hc.segs]
        have := r2.total
        omega
      · intro ho; rw [hop] at ho; cases ho
      · unfold all
        rw [hbuf, List.append_nil]
        exact hlive
      · unfold all
        rw [hbuf, List.append_nil]
    | false =>
      have hnone : w1.segs.map (deleteIn p) = w1.segs := by
        conv => rhs; rw [← List.map_id w1.segs]
        apply List.map_congr_left
        intro s hs
        apply deleteIn_none
        intro d hd
        rw [List.any_eq_false] at hany
        have := hany s hs
        simp only [Bool.not_eq_true] at this
        rw [List.any_eq_false] at this
        simpa using this d hd
      refine ⟨w1, ?_, r2, r3, ?_, .inr ?_⟩
      · intro n hn
        rw [hcall n hn, hany, hnone]
        rfl
      · have : (w1.segs.map (deleteIn p)).flatMap Seg.live = (all w).filter fun d => !p d := by
          rw [flatMap_filter, hc.segs, r6]
        rw [hnone, hc.segs] at this
        unfold all at *
        rw [r5, List.append_nil, this]
      · unfold all
        rw [r5, List.append_nil]
  · refine ⟨w, ?_, h, rfl, ?_, .inl rfl⟩
    · intro n hn
      unfold delete
      rw [if_neg hf]
    · rw [filter_all]
      intro d hd
      cases hpd : p d with
      | false => rfl
      | true =>
        exfalso
        apply hf
        unfold all at hd
        rcases List.mem_append.1 hd with hd | hd
        · obtain ⟨s, hs, hd⟩ := List.mem_flatMap.1 hd
          obtain ⟨x, hx, rfl⟩ := live_mem hd
          exact h.fields s hs x hx f (hp _ hpd)
        · exact h.bufFields d hd f (hp _ hpd)

theorem optimizeLoop_ok {D : Docs α} : ∀ (k : Nat) (w : W α), Closed D w → 2 ≤ w.cfg.mergeFactor → w.segs.length ≤ k + 1 →
    ∃ w', (∀ n, k + 2 < n → optimizeLoop n w = some (.ok w')) ∧ Closed D w' ∧ Same w w' ∧ toOptimize w' = false := by
  intro k
  induction k with
  | zero =>
    intro w h hm hl
    cases ht : toOptimize w with
    | false =>
      refine ⟨w, ?_, h, Same.rfl' w, ht⟩
      intro n hn
      obtain ⟨n, rfl⟩ : ∃ m, n = m + 1 := ⟨n - 1, by omega⟩
      unfold optimizeLoop
      rw [ht]
      rfl
    | true =>
      have hlen : w.segs.length = 1 := by
        cases hs : w.segs with
        | nil => unfold toOptimize at ht; rw [hs] at ht; simp at ht
        | cons s l =>
          rw [hs] at hl
          simp only [List.length_cons] at hl ⊢
          omega
      obtain ⟨w', m1, m2, m3, m4, m5⟩ := mergeFrom_ok h (min := 0) (by omega) (by omega)
      have ht' : toOptimize w' = false := by
        unfold toOptimize
        cases hs : w'.segs with
        | nil => rfl
        | cons s l =>
          cases l with
          | nil =>
            obtain ⟨q1, q2, q3, _⟩ := m5 s (by rw [hs]; rfl)
            simp only [q1, q2, q3, m3.cfg]
            cases w.cfg.compound <;> rfl
          | cons _ _ => rw [hs] at m4; simp at m4
      refine ⟨w', ?_, m2, m3, ht'⟩
      intro n hn
      obtain ⟨n, rfl⟩ : ∃ m, n = m + 1 := ⟨n - 1, by omega⟩
      unfold optimizeLoop
      rw [ht]
      dsimp only
      rw [if_pos rfl, if_pos (by omega), m1]
      dsimp only
      obtain ⟨n, rfl⟩ : ∃ m, n = m + 1 := ⟨n - 1, by omega⟩
      unfold optimizeLoop
      rw [ht']
      rfl
  | succ k ih =>
    intro w h hm hl
    by_cases hlen : w.segs.length ≤ 1
    · obtain ⟨w', r1, r2⟩ := ih w h hm (by omega)
      exact ⟨w', fun n hn => r1 n (by omega), r2⟩
    · have ht : toOptimize w = true := by
        unfold toOptimize
        cases hs : w.segs with
        | nil => rw [hs] at hlen; simp at hlen
        | cons s l =>
          cases l with
          | nil => rw [hs] at hlen; simp at hlen
          | cons _ _ => rfl
      obtain ⟨w1, m1, m2, m3, m4, m5⟩ := mergeFrom_ok h
        (min := if (w.segs.length : Int) - w.cfg.mergeFactor < 0 then 0 else (w.segs.length : Int) - w.cfg.mergeFactor)
        (by split <;> omega) (by split <;> omega)
      obtain ⟨w', r1, r2, r3, r4⟩ := ih w1 m2 (m3.cfg ▸ hm) (by rw [m4]; split <;> omega)
      refine ⟨w', ?_, r2, m3.trans r3, r4⟩
      intro n hn
      obtain ⟨n, rfl⟩ : ∃ m, n = m + 1 := ⟨n - 1, by omega⟩
      unfold optimizeLoop
      rw [ht]
      dsimp only
      rw [if_pos rfl, m1]
      exact r1 n (by omega)

theorem optimize_ok {D : Docs α} {K N : Nat} (hNK : (N * K : Int) ≤ intMax) (w : W α) (h : Ok' D K N w) :
    ∃ F w', (∀ n, F ≤ n → optimize n w = some (.ok w')) ∧ Ok' D K N w' ∧ w'.cfg = w.cfg ∧ w'.fields = w.fields ∧ buf w' = [] ∧
      w'.disk.flatMap Seg.live = all w ∧ toOptimize w' = false ∧ dwOpen w' = false := by
  obtain ⟨w1, r1, r2, r3, r4, r5, r6, r7⟩ := commit_ok' hNK w h
  have hc := r2.closed r7
  obtain ⟨w', q1, q2, q3, q4⟩ := optimizeLoop_ok w1.segs.length w1 hc r2.cfg.1 (by omega)
  have hb : buf w' = [] := by unfold buf at r5 ⊢; rw [q3.dw]; exact r5
  have ho : dwOpen w' = false := by unfold dwOpen at r7 ⊢; rw [q3.dw]; exact r7
  refine ⟨max 32 (w1.segs.length + 3), w', ?_, ⟨⟨by rw [ho, q2.segs]; simp, q2.files, q2.fields, q2.diskFields, by simp [hb], fun _ => hb,
      ?_, q3.cfg ▸ r2.cfg, ?_⟩, fun hx => by rw [ho] at hx; cases hx⟩, q3.cfg.trans r3, q3.fields.trans r4, hb, q3.live.trans r6, q4, ho⟩
  · intro n hn
    unfold optimize
    rw [r1 n (by omega)]
    exact q1 n (by omega)
  · intro dw hdw
    rw [q3.cfg]
    exact r2.capa dw (q3.dw ▸ hdw)
  · have := r2.total
    have := q3.total
    rw [hb]
    simp only [List.length_nil]
    omega

/-- What a call leaves. -/
structure Stepped (D : Docs α) (K M : Nat) (w : W α) (op : Op α) (w' : W α) : Prop where
  ok : Ok' D K M w'
  all : all w' = contents D (Writer.all w) [op]
  live : w'.disk.flatMap Seg.live = w.disk.flatMap Seg.live ∨ w'.disk.flatMap Seg.live = Writer.all w'

theorem step_ok {D : Docs α} (hD : D.Good) {K N : Nat} (hNK : (N * K : Int) ≤ intMax) (w : W α) {M : Nat} (h : Ok' D K M w) (op : Op α)
    (ops : List (Op α)) (hg : GoodOps K w.cfg.maxBufferedDocs (op :: ops)) (hM : M + adds (op :: ops) ≤ N) :
    ∃ F w' M', (∀ n, F ≤ n → step D n w op = some (.ok w')) ∧ Stepped D K M' w op w' ∧ GoodOps K w'.cfg.maxBufferedDocs ops ∧
      M' + adds ops ≤ N := by
  have hMN : M ≤ N := by omega
  have hMK := small hNK hMN
  cases op with
  | add d full =>
    simp only [adds] at hM
    obtain ⟨w', r1, r2, r3, r4, r5⟩ := addDoc_ok (small (M := M + 1) hNK (by omega)) w (h.mono (M := M + 1) (by have := h.total; omega)) d full
      (by have := h.total; omega)
    refine ⟨32, w', M + 1, fun n hn => r1 n (by omega), ⟨r2, by rw [r4]; rfl, ?_⟩, r3 ▸ hg, by omega⟩
    rcases r5 with r5 | r5
    · exact .inl r5
    · exact .inr (by rw [r5, r4])
  | openFails d => exact hg.elim
  | delete f t =>
    obtain ⟨w', r1, r2, r3, r4, r5⟩ := delete_ok hMK w h f (D.has f t) (fun d hd => hD f t d hd)
    exact ⟨32, w', M, fun n hn => r1 n (by omega), ⟨r2, by rw [r4]; rfl, r5⟩, r3 ▸ hg, hM⟩
  | deleteAll f ts =>
    obtain ⟨w', r1, r2, r3, r4, r5⟩ := delete_ok hMK w h f (fun d => ts.any fun t => D.has f t d) (fun d hd => by
      obtain ⟨t, _, ht⟩ := List.any_eq_true.1 hd
      exact hD f t d ht)
    exact ⟨32, w', M, fun n hn => r1 n (by omega), ⟨r2, by rw [r4]; rfl, r5⟩, r3 ▸ hg, hM⟩
  | commit =>
    obtain ⟨w', r1, r2, r3, r4, r5, r6, r7⟩ := commit_ok' hMK w h
    have : all w' = all w := by unfold all; rw [r5, List.append_nil, r6]; rfl
    exact ⟨32, w', M, fun n hn => r1 n (by omega), ⟨r2, this, .inr (r6.trans this.symm)⟩, r3 ▸ hg, hM⟩
  | optimize =>
    obtain ⟨F, w', r1, r2, r3, r4, r5, r6, r7⟩ := optimize_ok hMK w h
    have : all w' = all w := by unfold all; rw [r5, List.append_nil, r6]; rfl
    exact ⟨F, w', M, r1, ⟨r2, this, .inr (r6.trans this.symm)⟩, r3 ▸ hg, hM⟩
  | set c =>
    refine ⟨0, { w with cfg := c }, M, fun n _ => rfl, ⟨⟨⟨h.segs, h.files, h.fields, h.diskFields, h.bufFields, h.shut, ?_, hg.1, h.total⟩, h.some⟩,
      rfl, .inl rfl⟩, hg.2.2, hM⟩
    intro dw hdw
    have := h.capa dw hdw
    exact ⟨this.1, Int.le_trans hg.2.1 this.2⟩
  | reopen c =>
    obtain ⟨w', r1, r2, r3, r4, r5, r6, r7⟩ := commit_ok' hMK w h
    have hc := r2.closed r7
    have hall : all (iwOpen c w'.diskFields w'.disk) = all w := by
      rw [← r6]
      show w'.disk.flatMap Seg.live ++ [] = _
      rw [List.append_nil]
    refine ⟨32, iwOpen c w'.diskFields w'.disk, M, ?_, ⟨⟨⟨?_, hc.files, hc.diskFields, hc.diskFields, ?_, fun _ => rfl, ?_, hg.1, ?_⟩, ?_⟩, hall, .inr ?_⟩, hg.2, hM⟩
    · intro n hn
      show reopen n w c = _
      unfold reopen
      rw [r1 n (by omega)]
    · simp [iwOpen, dwOpen]
    · intro d hd
      simp [iwOpen, buf] at hd
    · intro dw hdw
      simp [iwOpen] at hdw
    · have := r2.total
      rw [r5] at this
      exact this
    · intro ho
      simp [iwOpen, dwOpen] at ho
    · exact r6.trans hall.symm

theorem contents_append (D : Docs α) : ∀ (a b : List (Op α)) (docs : List α), contents D docs (a ++ b) = contents D (contents D docs a) b := by
  intro a
  induction a with
  | nil => intro b docs; rfl
  | cons op a ih => intro b docs; cases op <;> simp only [List.cons_append, contents, ih]

theorem run_ok {D : Docs α} (hD : D.Good) {K N : Nat} (hNK : (N * K : Int) ≤ intMax) : ∀ (ops : List (Op α)) (w : W α) (M : Nat),
    Ok' D K M w → GoodOps K w.cfg.maxBufferedDocs ops → M + adds ops ≤ N →
    ∃ F w', (∀ n, F ≤ n → run D n w ops = some (.ok w')) ∧ Ok' D K N w' ∧ all w' = contents D (all w) ops ∧
      (w'.disk.flatMap Seg.live = w.disk.flatMap Seg.live ∨ ∃ pre, pre <+: ops ∧ w'.disk.flatMap Seg.live = contents D (all w) pre) := by
  intro ops
  induction ops with
  | nil =>
    intro w M h _ hM
    exact ⟨0, w, fun _ _ => rfl, h.mono (by have := h.total; omega), rfl, .inl rfl⟩
  | cons op ops ih =>
    intro w M h hg hM
    obtain ⟨F1, w1, M1, r1, r2, r3, r4⟩ := step_ok hD hNK w h op ops hg hM
    obtain ⟨F2, w2, q1, q2, q3, q4⟩ := ih w1 M1 r2.ok r3 r4
    refine ⟨max F1 F2, w2, ?_, q2, ?_, ?_⟩
    · intro n hn
      unfold run
      rw [r1 n (by omega)]
      exact q1 n (by omega)
    · rw [q3, r2.all, ← contents_append]
      rfl
    · rcases q4 with q4 | ⟨pre, hpre, q4⟩
      · rcases r2.live with hl | hl
        · exact .inl (q4.trans hl)
        · exact .inr ⟨[op], ⟨ops, rfl⟩, by rw [q4, hl, r2.all]⟩
      · exact .inr ⟨op :: pre, List.cons_prefix_cons.2 ⟨rfl, hpre⟩, by rw [q4, r2.all, ← contents_append]; rfl⟩

theorem view_ok {D : Docs α} {K N : Nat} {w : W α} (h : Ok D K N w) : view w.disk = .ok (w.disk.flatMap Seg.live) := by
  unfold view
  rw [if_pos]
  rw [List.all_eq_true]
  exact fun s hs => h.files s hs

theorem iwOpen_ok {D : Docs α} {K : Nat} {c : Config} (hc : GoodCfg K c) {fields : List (List Byte)} {disk : List (Seg α)}
    (hf : ∀ s ∈ disk, s.files = true) (hd : FieldsIn D disk fields) : Ok' D K (total disk) (iwOpen c fields disk) := by
  refine ⟨⟨by simp [iwOpen, dwOpen], hf, hd, hd, by simp [iwOpen, buf], fun _ => rfl, by simp [iwOpen], hc, by simp [iwOpen, buf]⟩, ?_⟩
  simp [iwOpen, dwOpen]

end Ferret.Writer
