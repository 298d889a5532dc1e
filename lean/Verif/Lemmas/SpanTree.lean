import Verif.Lemmas.SpanSem
import Verif.Lemmas.SpanFirst
import Verif.Lemmas.SpanTv

/-! The enumerators of span queries. -/

namespace Ferret.Span

open Ferret.Spec
open Ferret.Post (Posting)
open Ferret.Phrase (DocsOK)

variable {σ : Type} {o : Ops σ} {R : σ → Caps → Option Sp → List Sp → Prop} {D : σ → Caps → Prop}

/-! ### Nodes -/

def NodeR (R : σ → Caps → Option Sp → List Sp → Prop) (D : σ → Caps → Prop) : Node σ → Caps → Option Sp → List Sp → Prop
  | .sub s => R s
  | .term e => TermR e
  | .multi e => MultiR e
  | .tv e => TvR e
  | .tvMulti => fun _ _ _ => False
  | .first e => FirstR R e
  | .or e => OrR R e
  | .near e => NearR R e
  | .not e => NotR R D e

def NodeD (D : σ → Caps → Prop) : Node σ → Caps → Prop
  | .sub s => D s
  | .term e => TermD e
  | .multi e => MultiD e
  | .tv e => TvD e
  | .tvMulti => fun _ => False
  | .first e => FirstD D e
  | .or e => OrD e
  | .near e => NearD e
  | .not e => NotD e

theorem wrap_spec {α : Type} {f : α → Node σ} {R' : α → Caps → Option Sp → List Sp → Prop} {D' : α → Caps → Prop}
    (hR : ∀ a, NodeR R D (f a) = R' a) (hD : ∀ a, NodeD D (f a) = D' a) {k : Caps} {L : List Sp} {r : Res (Bool × α)}
    (h : ∃ x, r = .ok x ∧ Stepped R' D' k x L) : ∃ x, wrap f r = .ok x ∧ Stepped (NodeR R D) (NodeD D) k x L := by
  obtain ⟨x, rfl, h⟩ := h
  refine ⟨_, rfl, ?_⟩
  cases L with
  | nil => exact ⟨h.1, by rw [hD]; exact h.2⟩
  | cons y L => exact ⟨h.1, by rw [hR]; exact h.2⟩

theorem wrap_late {α : Type} {f : α → Node σ} {D' : α → Caps → Prop} (hD : ∀ a, NodeD D (f a) = D' a) {k : Caps} {c : Res Sp} {m : Int → Res (Bool × α)}
    (h : (∃ y, c = .ok y) ∧ ∀ t, ∃ s, m t = .ok (false, s) ∧ D' s k) : (∃ y, c = .ok y) ∧ ∀ t, ∃ s, wrap f (m t) = .ok (false, s) ∧ NodeD D s k := by
  refine ⟨h.1, fun t => ?_⟩
  obtain ⟨s, h1, h2⟩ := h.2 t
  rw [h1]
  exact ⟨_, rfl, by rw [hD]; exact h2⟩

theorem good_node (g : Good o R D) : Good (nodeOps o) (NodeR R D) (NodeD D) where
  left := fun {s k c L} h => by
    cases s with
    | sub s => exact g.left h
    | term e => exact good_term.left (k := k) (c := c) h
    | multi e => exact good_multi.left (k := k) (c := c) h
    | tv e => exact good_tv.left (k := k) (c := c) h
    | tvMulti => exact h.elim
    | first e => exact (good_first g).left h
    | or e => exact (good_or g).left h
    | near e => exact (good_near g).left h
    | not e => exact (good_not g).left h
  cur := fun {s k x L} h => by
    cases s with
    | sub s => exact g.cur h
    | term e => exact good_term.cur (k := k) h
    | multi e => exact good_multi.cur (k := k) h
    | tv e => exact good_tv.cur (k := k) h
    | tvMulti => exact h.elim
    | first e => exact (good_first g).cur h
    | or e => exact (good_or g).cur h
    | near e => exact (good_near g).cur h
    | not e => exact (good_not g).cur h
  early := fun {s k L} h hk => by
    cases s with
    | sub s => exact g.early h hk
    | term e => exact good_term.early (k := k) h hk
    | multi e => exact good_multi.early (k := k) h hk
    | tv e => exact good_tv.early (k := k) h hk
    | tvMulti => exact h.elim
    | first e => exact (good_first g).early h hk
    | or e => exact (good_or g).early h hk
    | near e => exact (good_near g).early h hk
    | not e => exact (good_not g).early h hk
  next := fun {s k c L} h ho => by
    cases s with
    | sub s => exact wrap_spec (fun _ => rfl) (fun _ => rfl) (g.next h ho)
    | term e => exact wrap_spec (fun _ => rfl) (fun _ => rfl) (good_term.next h ho)
    | multi e => exact wrap_spec (fun _ => rfl) (fun _ => rfl) (good_multi.next h ho)
    | tv e => exact wrap_spec (fun _ => rfl) (fun _ => rfl) (good_tv.next h ho)
    | tvMulti => exact h.elim
    | first e => exact wrap_spec (fun _ => rfl) (fun _ => rfl) ((good_first g).next h ho)
    | or e => exact wrap_spec (fun _ => rfl) (fun _ => rfl) ((good_or g).next h ho)
    | near e => exact wrap_spec (fun _ => rfl) (fun _ => rfl) ((good_near g).next h ho)
    | not e => exact wrap_spec (fun _ => rfl) (fun _ => rfl) ((good_not g).next h ho)
  skip := fun {s k c L t} h ho hs hb => by
    cases s with
    | sub s => exact wrap_spec (fun _ => rfl) (fun _ => rfl) (g.skip h ho hs hb)
    | term e => exact wrap_spec (fun _ => rfl) (fun _ => rfl) (good_term.skip h ho hs hb)
    | multi e => exact wrap_spec (fun _ => rfl) (fun _ => rfl) (good_multi.skip h ho hs hb)
    | tv e => exact wrap_spec (fun _ => rfl) (fun _ => rfl) (good_tv.skip h ho hs hb)
    | tvMulti => exact h.elim
    | first e => exact wrap_spec (fun _ => rfl) (fun _ => rfl) ((good_first g).skip h ho hs hb)
    | or e => exact wrap_spec (fun _ => rfl) (fun _ => rfl) ((good_or g).skip h ho hs hb)
    | near e => exact wrap_spec (fun _ => rfl) (fun _ => rfl) ((good_near g).skip h ho hs hb)
    | not e => exact wrap_spec (fun _ => rfl) (fun _ => rfl) ((good_not g).skip h ho hs hb)
  late := fun {s k} h hk => by
    cases s with
    | sub s => exact wrap_late (fun _ => rfl) (g.late h hk)
    | term e => exact wrap_late (fun _ => rfl) (good_term.late (k := k) h hk)
    | multi e => exact wrap_late (fun _ => rfl) (good_multi.late (k := k) h hk)
    | tv e => exact wrap_late (fun _ => rfl) (good_tv.late (k := k) h hk)
    | tvMulti => exact h.elim
    | first e => exact wrap_late (fun _ => rfl) ((good_first g).late h hk)
    | or e => exact wrap_late (fun _ => rfl) ((good_or g).late (k := k) h hk)
    | near e => exact wrap_late (fun _ => rfl) ((good_near g).late (k := k) h hk)
    | not e => exact wrap_late (fun _ => rfl) ((good_not g).late (k := k) h hk)

mutual
def LvlR : (n : Nat) → Lvl n → Caps → Option Sp → List Sp → Prop
  | 0 => fun _ _ _ _ => False
  | n + 1 => NodeR (LvlR n) (LvlD n)
def LvlD : (n : Nat) → Lvl n → Caps → Prop
  | 0 => fun _ _ => False
  | n + 1 => NodeD (LvlD n)
end

theorem good_lvl : ∀ n, Good (lvlOps n) (LvlR n) (LvlD n)
  | 0 => ⟨fun {s} => s.elim, fun {s} => s.elim, fun {s} => s.elim, fun {s} => s.elim, fun {s} => s.elim, fun {s} => s.elim⟩
  | n + 1 => by
    have := good_node (good_lvl n)
    exact this

/-! ### The spans of terms -/

variable {T : Type} {ix : T → List Posting}

theorem mem_termSpans {ps : List Posting} {x : Sp} : x ∈ termSpans ps ↔ ∃ p ∈ ps, x.doc = p.doc ∧ x.start ∈ p.occ ∧ x.stop = x.start + 1 := by
  unfold termSpans occSpans
  simp only [List.mem_flatMap, List.mem_map]
  constructor
  · rintro ⟨p, h1, q, h2, rfl⟩
    exact ⟨p, h1, rfl, h2, rfl⟩
  · rintro ⟨p, h1, h2, h3, h4⟩
    refine ⟨p, h1, x.start, h3, ?_⟩
    obtain ⟨d, s, e⟩ := x
    simp_all

theorem before_le {a b : Sp} (h : SpBefore a b) : SpLe a b := by unfold SpBefore SpLe at *; omega

theorem term_proper (h : IndexOK ix) (t : T) : ∀ x ∈ termSpans (ix t), Proper x ∧ x.stop = x.start + 1 := by
  intro x hx
  obtain ⟨p, h1, h2, h3, h4⟩ := mem_termSpans.1 hx
  have h5 := h.lim t p h1
  have h6 := h5.2 _ h3
  unfold Proper; omega

theorem term_before (h : IndexOK ix) (t : T) : (termSpans (ix t)).Pairwise SpBefore := termSpans_before (h.docs t) (h.pos t)

theorem term_pos (h : IndexOK ix) (t : T) : DocsPos (ix t) := ⟨(h.docs t).freq, fun p hp x hx => ((h.lim t p hp).2 x hx).1⟩

instance (a b : Sp) : Decidable (SpBefore a b) := by unfold SpBefore; infer_instance

/-- Single positions in order, each once. -/
theorem exists_union : ∀ (M : List Sp), (∀ x ∈ M, x.stop = x.start + 1) → ∃ L : List Sp, L.Pairwise SpBefore ∧ ∀ x, x ∈ L ↔ x ∈ M
  | [], _ => ⟨[], .nil, fun _ => Iff.rfl⟩
  | m :: M, h => by
    obtain ⟨L, h1, h2⟩ := exists_union M fun x hx => h x (List.mem_cons_of_mem _ hx)
    have hm := h m (List.mem_cons_self ..)
    refine ⟨L.filter (fun x => decide (SpBefore x m)) ++ m :: L.filter (fun x => decide (SpBefore m x)), ?_, fun x => ?_⟩
    · rw [List.pairwise_append, List.pairwise_cons]
      refine ⟨h1.sublist (List.filter_sublist ..), ⟨fun y hy => ?_, h1.sublist (List.filter_sublist ..)⟩, fun a ha b hb => ?_⟩
      · exact of_decide_eq_true (List.mem_filter.1 hy).2
      · have ha' := of_decide_eq_true (List.mem_filter.1 ha).2
        rcases List.mem_cons.1 hb with rfl | hb
        · exact ha'
        · exact before_trans ha' (of_decide_eq_true (List.mem_filter.1 hb).2)
    · simp only [List.mem_append, List.mem_cons, List.mem_filter, decide_eq_true_eq, h2]
      constructor
      · rintro (h | h | h)
        · exact .inr h.1
        · exact .inl h
        · exact .inr h.1
      · rintro (h' | h')
        · exact .inr (.inl h')
        · have hx := h x (List.mem_cons_of_mem _ h')
          by_cases a : SpBefore x m
          · exact .inl ⟨h', a⟩
          · by_cases b : SpBefore m x
            · exact .inr (.inr ⟨h', b⟩)
            · right; left
              obtain ⟨d, s, e⟩ := x
              obtain ⟨d', s', e'⟩ := m
              unfold SpBefore at a b
              simp only [Sp.mk.injEq] at *
              omega

/-! ### The order of spans -/

structure Cls (r : Nat) (L : List Sp) : Prop where
  single : r = 0 → Single L
  stair : r ≤ 1 → Stair L
  lex : r ≤ 2 → L.Pairwise SpLex

theorem Cls.mono {r r' : Nat} {L : List Sp} (h : Cls r L) (hr : r ≤ r') : Cls r' L :=
  ⟨fun e => h.single (by omega), fun e => h.stair (by omega), fun e => h.lex (by omega)⟩

theorem Cls.sub {r : Nat} {K L : List Sp} (h : Cls r K) (s : L.Sublist K) : Cls r L :=
  ⟨fun e => Single.sub (h.single e) s, fun e => (h.stair e).sub s, fun e => (h.lex e).sublist s⟩

theorem stair_lex {L : List Sp} (h : Stair L) : L.Pairwise SpLex := h.imp fun {a b} h => by unfold SpLex; omega

theorem single_stair {L : List Sp} (h : Single L) (ho : L.Pairwise SpLe) : Stair L :=
  ho.imp_of_mem fun {a b} ha hb hab => by
    have := h a ha
    have := h b hb
    unfold SpLe at hab; omega

theorem cls_single {L : List Sp} (h : Single L) (ho : L.Pairwise SpLe) : Cls 0 L :=
  ⟨fun _ => h, fun _ => single_stair h ho, fun _ => stair_lex (single_stair h ho)⟩

/-! ### Queries -/

variable {lv : Leaves T} {src : Src T}

def caps (lv : Leaves T) (q : SpanQ T) : Caps := ⟨jumpsW lv q, startsSafely q, endsSafelyW lv q⟩

/-- What is known of the enumerator of a query. -/
structure Spans (lv : Leaves T) (ix : T → List Posting) (n : Nat) (q : SpanQ T) (s : Lvl n) (L : List Sp) : Prop where
  state : LvlR n s (caps lv q) none L
  ord : Ord L
  cls : Cls (rank q) L
  says : Says ix q L

theorem SpLex.total (a b : Sp) : SpLex a b ∨ SpLex b a := by unfold SpLex; omega

instance (a b : Sp) : Decidable (SpLex a b) := by unfold SpLex; infer_instance

theorem exists_sorted (M : List Sp) : ∃ L : List Sp, L.Pairwise SpLex ∧ M.Perm L := by
  refine ⟨M.mergeSort fun a b => decide (SpLex a b), ?_, (List.mergeSort_perm ..).symm⟩
  refine (List.pairwise_mergeSort (le := fun a b => decide (SpLex a b)) ?_ ?_ M).imp fun h => of_decide_eq_true h
  · intro a b c h1 h2
    exact decide_eq_true (lex_trans (of_decide_eq_true h1) (of_decide_eq_true h2))
  · intro a b
    simp only [Bool.or_eq_true, decide_eq_true_eq]
    exact SpLex.total a b

/-- The clauses of a query. -/
structure Clauses (lv : Leaves T) (ix : T → List Posting) (n : Nat) (qs : List (SpanQ T)) (ss : List (Lvl n × Caps × List Sp)) : Prop where
  state : ∀ s ∈ ss, LvlR n s.1 s.2.1 none s.2.2
  ord : ∀ s ∈ ss, Ord s.2.2
  cls : ∀ s ∈ ss, Cls (ranks qs) s.2.2
  says : SaysAll ix qs (ss.map (·.2.2))
  jump : allJumpW lv qs = true → ∀ s ∈ ss, s.2.1.skips = true
  start : qs.all startsSafely = true → ∀ s ∈ ss, s.2.1.early = true

theorem mapR_spec {n : Nat} {ix : T → List Posting} (hq : ∀ q : SpanQ T, q.depth ≤ n → SupportedW lv q = true → ∃ s L, getSpansFrom src n q = .ok s ∧ Spans lv ix n q s L) :
    ∀ qs : List (SpanQ T), depths qs ≤ n → allSupportedW lv qs = true → ∃ ss, mapR (getSpansFrom src n) qs = .ok (ss.map (·.1)) ∧ Clauses lv ix n qs ss
  | [], _, _ => ⟨[], rfl, (fun _ h => nomatch h), (fun _ h => nomatch h), (fun _ h => nomatch h), by simp [SaysAll], (fun _ _ h => nomatch h), (fun _ _ h => nomatch h)⟩
  | q :: qs, hd, hs => by
    simp only [depths] at hd
    simp only [allSupportedW, Bool.and_eq_true] at hs
    obtain ⟨s, L, h1, h2⟩ := hq q (by omega) hs.1
    obtain ⟨ss, h3, h4⟩ := mapR_spec hq qs (by omega) hs.2
    refine ⟨(s, caps lv q, L) :: ss, by rw [mapR, h1, Res.ok_bind, h3]; rfl, ?_, ?_, ?_, ?_, ?_, ?_⟩
    · intro a ha
      rcases List.mem_cons.1 ha with rfl | ha
      · exact h2.state
      · exact h4.state a ha
    · intro a ha
      rcases List.mem_cons.1 ha with rfl | ha
      · exact h2.ord
      · exact h4.ord a ha
    · intro a ha
      simp only [ranks]
      rcases List.mem_cons.1 ha with rfl | ha
      · exact h2.cls.mono (by omega)
      · exact (h4.cls a ha).mono (by omega)
    · simp only [SaysAll, List.map_cons]
      exact ⟨_, _, h2.says, h4.says, rfl⟩
    · intro hj a ha
      simp only [allJumpW, Bool.and_eq_true] at hj
      rcases List.mem_cons.1 ha with rfl | ha
      · exact hj.1
      · exact h4.jump hj.2 a ha
    · intro hj a ha
      simp only [List.all_cons, Bool.and_eq_true] at hj
      rcases List.mem_cons.1 ha with rfl | ha
      · exact hj.1
      · exact h4.start hj.2 a ha

theorem or_spans {n : Nat} {qs : List (SpanQ T)} {ss : List (Lvl n × Caps × List Sp)} (h : Clauses lv ix n qs ss) (hr : ranks qs ≤ 2)
    (hcaps : caps lv (.or qs) = ⟨allJumpW lv qs, false, false⟩) (hrank : rank (.or qs) = if ranks qs = 0 then 0 else 2) :
    ∃ L, Spans lv ix (n + 1) (.or qs) (.or (OrE.new (ss.map (·.1))) : Node (Lvl n)) L := by
  obtain ⟨L, hL, hp⟩ := exists_sorted (ss.flatMap (·.2.2))
  have hmem : ∀ x ∈ L, ∃ s ∈ ss, x ∈ s.2.2 := fun x hx => List.mem_flatMap.1 (hp.mem_iff.2 hx)
  have hord : Ord L := ⟨hL.imp fun h => lex_le h, fun x hx => by
    obtain ⟨s, h1, h2⟩ := hmem x hx
    exact (h.ord s h1).2 x h2⟩
  refine ⟨L, ?_, hord, ?_, ?_⟩
  · show OrR (LvlR n) _ (caps lv (.or qs)) none L
    rw [hcaps]
    exact orR_new rfl rfl hL (fun s hs => ⟨h.state s hs, (h.cls s hs).lex hr, fun hj => h.jump hj s hs⟩) hp
  · rw [hrank]
    by_cases h0 : ranks qs = 0
    · rw [if_pos h0]
      refine cls_single (fun x hx => ?_) hord.1
      obtain ⟨s, h1, h2⟩ := hmem x hx
      exact (h.cls s h1).single h0 x h2
    · rw [if_neg h0]
      exact ⟨fun e => by omega, fun e => by omega, fun _ => hL⟩
  · simp only [Says]
    refine ⟨_, h.says, hord.1, ?_⟩
    rw [← List.flatMap_def]
    exact hp.symm

theorem near_spans_node {n : Nat} {qs : List (SpanQ T)} {ss : List (Lvl n × Caps × List Sp)} (h : Clauses lv ix n qs ss) (slop : Int) (inOrder : Bool)
    {s : Lvl n × Caps × List Sp} {ss' : List (Lvl n × Caps × List Sp)} (hss : ss = s :: ss') (hj : allJumpW lv qs = true)
    (hst : ∀ s ∈ ss', s.2.1.early = true)
    (hcaps : caps lv (.near qs slop inOrder) = ⟨allJumpW lv qs, true, false⟩) (hrank : rank (.near qs slop inOrder) = if ranks qs ≤ 1 then 1 else 3)
    (hsays : Says ix (.near qs slop inOrder) = fun L => ∃ Ks, SaysAll ix qs Ks ∧ L.Pairwise SpLe ∧ NearSpans slop inOrder Ks L) :
    ∃ L, Spans lv ix (n + 1) (.near qs slop inOrder) (.near (NearE.new (ss.map (·.1)) slop inOrder) : Node (Lvl n)) L := by
  have ho : ∀ K ∈ ss.map (·.2.2), Ord K := by
    intro K hK
    obtain ⟨a, ha, rfl⟩ := List.mem_map.1 hK
    exact h.ord a ha
  have hord := near_ord inOrder slop ho
  refine ⟨near (stepOf inOrder slop) (ss.map (·.2.2)), ?_, hord, ?_, ?_⟩
  · show NearR (LvlR n) _ (caps lv (.near qs slop inOrder)) none _
    rw [hcaps]
    let ng : Lvl n × Caps × List Sp → NG (Lvl n) := fun s => ⟨s.1, s.2.1, none, s.2.2⟩
    refine ⟨rfl, rfl, rfl, rfl, ng s, ss'.map ng, ?_, ?_, ?_, ?_⟩
    · show ss.map (·.1) = _
      rw [hss]
      simp [sts, ng]
    · intro a ha
      rw [← List.map_cons, ← hss] at ha
      obtain ⟨b, hb, rfl⟩ := List.mem_map.1 ha
      exact ⟨rfl, h.state b hb, h.ord b hb, h.jump hj b hb⟩
    · intro a ha
      obtain ⟨b, hb, rfl⟩ := List.mem_map.1 ha
      exact hst b hb
    · show near (stepOf inOrder slop) _ = near (stepOf inOrder slop) _
      rw [hss, List.map_cons, List.map_cons, List.map_map]
      rfl
  · rw [hrank]
    by_cases h1 : ranks qs ≤ 1
    · rw [if_pos h1]
      have hs := near_stair inOrder slop ho fun K hK => by
        obtain ⟨a, ha, rfl⟩ := List.mem_map.1 hK
        exact (h.cls a ha).stair h1
      exact ⟨fun e => by omega, fun _ => hs, fun _ => stair_lex hs⟩
    · rw [if_neg h1]
      exact ⟨fun e => by omega, fun e => by omega, fun e => by omega⟩
  · rw [hsays]
    exact ⟨_, h.says, hord.1, near_spans inOrder slop ho⟩

theorem lvl_sub {n : Nat} {q q' : SpanQ T} {s : Lvl n} {L : List Sp} (h : Spans lv ix n q s L) (hc : caps lv q' = caps lv q) (hr : rank q' = rank q)
    (hs : Says ix q L → Says ix q' L) : Spans lv ix (n + 1) q' (.sub s : Node (Lvl n)) L :=
  ⟨by rw [hc]; exact h.state, h.ord, by rw [hr]; exact h.cls, hs h.says⟩

/-- What the enumerators of terms do. -/
structure LeafSpec (src : Src T) (lv : Leaves T) (ix : T → List Posting) : Prop where
  index : IndexOK ix
  term : ∀ n t, NodeR (LvlR n) (LvlD n) (src.term t) ⟨lv.jump t, true, lv.late⟩ none (termSpans (ix t))
  multi : lv.multi = true → ∀ n ts L, L.Pairwise SpBefore → (∀ x, x ∈ L ↔ ∃ t ∈ ts, x ∈ termSpans (ix t)) →
    NodeR (LvlR n) (LvlD n) (src.multi ts) ⟨true, true, lv.late⟩ none L

theorem leaf_index (hix : IndexOK ix) : LeafSpec (.index ix) indexLeaves ix where
  index := hix
  term _ t := termR_new (hix.docs t) _
  multi _ _ ts L hb hm := by
    refine multiR_new _ (fun ps hps => ?_) hb fun x => ?_
    · obtain ⟨t, _, rfl⟩ := List.mem_map.1 hps
      exact ⟨term_pos hix t, term_before hix t⟩
    · rw [hm]
      constructor
      · rintro ⟨t, h1, h2⟩
        exact ⟨_, List.mem_map_of_mem h1, h2⟩
      · rintro ⟨ps, h1, h2⟩
        obtain ⟨t, h3, rfl⟩ := List.mem_map.1 h1
        exact ⟨t, h3, h2⟩

theorem asIndex_ok {tv : T → Option (List Int)} (h : VectorOK tv) : IndexOK (asIndex tv) := by
  have key : ∀ t p, p ∈ asIndex tv t → ∃ ps, tv t = some ps ∧ p = ⟨0, ps.length, ps⟩ := by
    intro t p hp
    unfold asIndex at hp
    cases e : tv t with
    | none => rw [e] at hp; cases hp
    | some ps => rw [e] at hp; exact ⟨ps, rfl, List.mem_singleton.1 hp⟩
  refine ⟨fun t => ?_, fun t p hp => ?_, fun t p hp => ?_⟩
  · refine ⟨?_, fun p hp => ?_, fun p hp => ?_⟩
    · unfold asIndex
      cases tv t <;> simp
    · obtain ⟨ps, h1, rfl⟩ := key t p hp
      exact ⟨rfl, List.length_pos_iff.2 (h t ps h1).1⟩
    · obtain ⟨ps, h1, rfl⟩ := key t p hp
      exact (h t ps h1).2.1.imp fun h => by omega
  · obtain ⟨ps, h1, rfl⟩ := key t p hp
    exact (h t ps h1).2.1
  · obtain ⟨ps, h1, rfl⟩ := key t p hp
    exact ⟨by show (0 : Nat) < 2147483647; omega, (h t ps h1).2.2⟩

theorem leaf_vector {tv : T → Option (List Int)} (h : VectorOK tv) : LeafSpec (.vector tv) (vectorLeaves tv) (asIndex tv) where
  index := asIndex_ok h
  term _ t := by
    show TvR (TvE.new (tv t)) ⟨(tv t).isSome, true, false⟩ none _
    unfold asIndex
    cases e : tv t with
    | none => exact .absent rfl rfl
    | some ps =>
      have : termSpans [(⟨0, ps.length, ps⟩ : Posting)] = occSpans 0 ps := by simp [termSpans]
      rw [this]
      exact .new (h t ps e).1 rfl
  multi hm := nomatch hm

/-- The enumerator of a supported query gives its spans. -/
theorem getSpansFrom_spec (hl : LeafSpec src lv ix) : ∀ (n : Nat) (q : SpanQ T), q.depth ≤ n → SupportedW lv q = true → ∃ s L, getSpansFrom src n q = .ok s ∧ Spans lv ix n q s L
  | 0, q, hd, _ => by cases q <;> simp [SpanQ.depth] at hd
  | n + 1, q, hd, hs => by
    have ih := getSpansFrom_spec hl n
    have hix := hl.index
    cases q with
    | term t =>
      have hp := term_proper hix t
      have hb := term_before hix t
      have ho : Ord (termSpans (ix t)) := ⟨hb.imp fun h => before_le h, fun x hx => (hp x hx).1⟩
      refine ⟨_, termSpans (ix t), rfl, ?_, ho, cls_single (fun x hx => (hp x hx).2) ho.1, ?_⟩
      · exact hl.term n t
      · simp only [Says]
        exact ⟨hb, fun x => mem_termSpans⟩
    | multi ts =>
      obtain ⟨L, hb, hm⟩ := exists_union (ts.flatMap fun t => termSpans (ix t)) fun x hx => by
        obtain ⟨t, _, h2⟩ := List.mem_flatMap.1 hx
        exact (term_proper hix t x h2).2
      have hm' : ∀ x, x ∈ L ↔ ∃ t ∈ ts, x ∈ termSpans (ix t) := fun x => by rw [hm, List.mem_flatMap]
      have ho : Ord L := ⟨hb.imp fun h => before_le h, fun x hx => by
        obtain ⟨t, _, h2⟩ := (hm' x).1 hx
        exact (term_proper hix t x h2).1⟩
      refine ⟨_, L, rfl, ?_, ho, cls_single (fun x hx => ?_) ho.1, ?_⟩
      · exact hl.multi (by simpa only [SupportedW] using hs) n ts L hb hm'
      · obtain ⟨t, _, h2⟩ := (hm' x).1 hx
        exact (term_proper hix t x h2).2
      · simp only [Says]
        refine ⟨hb, fun x => ?_⟩
        rw [hm']
        constructor
        · rintro ⟨t, h1, h2⟩
          exact ⟨t, h1, mem_termSpans.1 h2⟩
        · rintro ⟨t, h1, h2⟩
          exact ⟨t, h1, mem_termSpans.2 h2⟩
    | first q limit =>
      simp only [SpanQ.depth] at hd
      simp only [SupportedW] at hs
      obtain ⟨s, L, h1, h2⟩ := ih q (by omega) hs
      have hsub : (L.filter (early limit)).Sublist L := List.filter_sublist ..
      refine ⟨_, L.filter (early limit), by rw [getSpansFrom, h1]; rfl, ?_, h2.ord.sub hsub, ?_, ?_⟩
      · show FirstR (LvlR n) _ (caps lv (.first q limit)) none _
        have hc : caps lv (.first q limit) = caps lv q := by simp [caps, jumpsW, startsSafely, endsSafelyW]
        rw [hc]
        exact ⟨L, h2.state, by simpa using h2.ord, rfl⟩
      · have hr : rank (.first q limit) = rank q := by simp [rank]
        rw [hr]; exact h2.cls.sub hsub
      · simp only [Says]
        exact ⟨L, h2.says, rfl⟩
    | or qs =>
      simp only [SpanQ.depth] at hd
      simp only [SupportedW, Bool.and_eq_true, decide_eq_true_eq] at hs
      match qs, hd, hs with
      | [q], hd, hs =>
        simp only [depths] at hd
        simp only [allSupportedW, Bool.and_eq_true] at hs
        obtain ⟨s, L, h1, h2⟩ := ih q (by omega) hs.1.1
        refine ⟨_, L, by rw [getSpansFrom, h1]; rfl, lvl_sub h2 ?_ ?_ fun h => ?_⟩
        · simp [caps, jumpsW, allJumpW, startsSafely, endsSafelyW]
        · simp [rank]
        · simp only [Says, SaysAll]
          exact ⟨[L], ⟨L, [], h, rfl, rfl⟩, h2.ord.1, by simp⟩
      | [], hd, hs =>
        obtain ⟨ss, h1, h2⟩ := mapR_spec ih [] (by omega) hs.1
        obtain ⟨L, h3⟩ := or_spans h2 hs.2 (by simp [caps, jumpsW, startsSafely, endsSafelyW]) (by simp [rank])
        exact ⟨_, L, by rw [getSpansFrom, h1]; rfl; simp, h3⟩
      | q :: q' :: qs, hd, hs =>
        obtain ⟨ss, h1, h2⟩ := mapR_spec ih (q :: q' :: qs) (by omega) hs.1
        obtain ⟨L, h3⟩ := or_spans h2 hs.2 (by simp [caps, jumpsW, startsSafely, endsSafelyW]) (by simp [rank])
        exact ⟨_, L, by rw [getSpansFrom, h1]; rfl; simp, h3⟩
    | near qs slop inOrder =>
      simp only [SpanQ.depth] at hd
      match qs, hd, hs with
      | [], hd, hs => simp [SupportedW] at hs
      | [q], hd, hs =>
        simp only [depths] at hd
        simp only [SupportedW] at hs
        obtain ⟨s, L, h1, h2⟩ := ih q (by omega) hs
        refine ⟨_, L, by rw [getSpansFrom, h1]; rfl, lvl_sub h2 ?_ ?_ fun h => ?_⟩
        · simp [caps, jumpsW, allJumpW, startsSafely, endsSafelyW]
        · simp [rank]
        · simp only [Says]
          exact h
      | q :: q' :: qs, hd, hs =>
        simp only [SupportedW, Bool.and_eq_true] at hs
        obtain ⟨⟨⟨⟨s1, s2⟩, s3⟩, s4⟩, s5⟩ := hs
        have hd1 : q.depth ≤ n ∧ depths (q' :: qs) ≤ n := by
          simp only [depths] at hd ⊢; omega
        obtain ⟨s, K, h1, h2⟩ := ih q hd1.1 s1
        obtain ⟨ss, h3, h4⟩ := mapR_spec ih (q' :: qs) hd1.2 s2
        have hcl : Clauses lv ix n (q :: q' :: qs) ((s, caps lv q, K) :: ss) := by
          obtain ⟨ss', h5, h6⟩ := mapR_spec (n := n) (fun q hq hs => ih q hq hs) (q :: q' :: qs) (by omega) (by rw [allSupportedW, s1, s2]; rfl)
          refine ⟨?_, ?_, ?_, ?_, ?_, ?_⟩
          · intro a ha
            rcases List.mem_cons.1 ha with rfl | ha
            · exact h2.state
            · exact h4.state a ha
          · intro a ha
            rcases List.mem_cons.1 ha with rfl | ha
            · exact h2.ord
            · exact h4.ord a ha
          · intro a ha
            rw [ranks]
            rcases List.mem_cons.1 ha with rfl | ha
            · exact h2.cls.mono (by omega)
            · exact (h4.cls a ha).mono (by omega)
          · rw [SaysAll, List.map_cons]
            exact ⟨_, _, h2.says, h4.says, rfl⟩
          · intro hj a ha
            rcases List.mem_cons.1 ha with rfl | ha
            · exact s3
            · exact h4.jump s4 a ha
          · intro hj a ha
            rw [List.all_cons, Bool.and_eq_true] at hj
            rcases List.mem_cons.1 ha with rfl | ha
            · exact hj.1
            · exact h4.start hj.2 a ha
        obtain ⟨L, h5⟩ := near_spans_node hcl slop inOrder rfl (by rw [allJumpW, s3, s4]; rfl) (h4.start s5)
          (by simp [caps, jumpsW, startsSafely, endsSafelyW]) (by simp [rank]) (by funext L; simp only [Says])
        exact ⟨_, L, by rw [getSpansFrom, mapR, h1, Res.ok_bind, h3]; rfl; simp, h5⟩
    | not a b =>
      simp only [SpanQ.depth] at hd
      simp only [SupportedW, Bool.and_eq_true] at hs
      obtain ⟨s, I, h1, h2⟩ := ih a (by omega) hs.1.1
      obtain ⟨s', E, h3, h4⟩ := ih b (by omega) hs.1.2
      have hk : NotCaps (caps lv (.not a b)) (caps lv a) (caps lv b) := by
        refine ⟨?_, ?_, hs.2, ?_⟩
        · simp [caps, startsSafely]
        · simp only [caps, jumpsW, Bool.and_eq_true]
          exact id
        · simp [caps, endsSafelyW]
      obtain ⟨x, h5, h6⟩ := notNew_spec (good_lvl n) hk h2.state h4.state h2.ord h4.ord
      have hsub : (I.filter (apart E)).Sublist I := List.filter_sublist ..
      refine ⟨(.not x : Node (Lvl n)), I.filter (apart E), by rw [getSpansFrom, h1, Res.ok_bind, h3, Res.ok_bind, h5]; rfl, h6, h2.ord.sub hsub, ?_, ?_⟩
      · have hr : rank (.not a b) = rank a := by simp [rank]
        rw [hr]; exact h2.cls.sub hsub
      · simp only [Says]
        refine ⟨I, E, h2.says, h4.says, hsub, fun x => ?_⟩
        rw [List.mem_filter]
        simp [apart]

/-- The spans of a supported query. -/
theorem spansFrom_spec (hl : LeafSpec src lv ix) (q : SpanQ T) (hs : SupportedW lv q = true) : ∃ L, spansFrom src q = .ok L ∧ Ord L ∧ Says ix q L := by
  obtain ⟨s, L, h1, h2⟩ := getSpansFrom_spec hl q.depth q (Nat.le_refl _) hs
  refine ⟨L, ?_, h2.ord, h2.says⟩
  unfold spansFrom
  rw [h1, Res.ok_bind]
  exact collect_spec (good_lvl _) _ L s _ none h2.state (by simpa using h2.ord) (Nat.lt_succ_of_le ((good_lvl _).left h2.state))

theorem getSpans_spec (hix : IndexOK ix) (n : Nat) (q : SpanQ T) (hd : q.depth ≤ n) (hs : Supported q = true) :
    ∃ s L, getSpans ix n q = .ok s ∧ Spans indexLeaves ix n q s L := getSpansFrom_spec (leaf_index hix) n q hd hs

theorem spansOf_spec (hix : IndexOK ix) (q : SpanQ T) (hs : Supported q = true) : ∃ L, spansOf ix q = .ok L ∧ Ord L ∧ Says ix q L :=
  spansFrom_spec (leaf_index hix) q hs

end Ferret.Span
