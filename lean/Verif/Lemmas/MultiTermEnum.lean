import Verif.Model.MultiTermEnum
import Verif.Lemmas.PriorityQueue
import Verif.Props.C20

/-! Lemmas for the enumerator of the terms of several segments. -/

namespace Ferret.MTE
open Ferret Ferret.Expand Ferret.Dict Ferret.Spec Ferret.Props

/-! ### The order of the queue -/

theorem strcmp_neg {s t : Term} (h1 : strcmp s t ≠ 0) : decide (strcmp s t < 0) = strLt s t := by
  cases h : strLt s t with
  | true => exact decide_eq_true (strcmp_lt.2 ((strLt_iff _ _).1 h))
  | false => exact decide_eq_false fun h2 => by rw [(strLt_iff _ _).2 (strcmp_lt.1 h2)] at h; cases h

theorem tewLt_false {a b : Term × Nat} : tewLt a b = false ↔ ¬ a.1 < b.1 ∧ (a.1 = b.1 → b.2 ≤ a.2) := by
  unfold tewLt
  dsimp only
  by_cases h : strcmp a.1 b.1 = 0
  · rw [if_pos h]
    have he := strcmp_eq.1 h
    rw [he]
    simp [List.lt_irrefl]
  · rw [if_neg h]
    have hne : a.1 ≠ b.1 := fun h2 => h (strcmp_eq.2 h2)
    rw [decide_eq_false_iff_not, strcmp_lt]
    exact ⟨fun h => ⟨h, fun h2 => absurd h2 hne⟩, (·.1)⟩

theorem lt_negTrans {a b c : Term} (h1 : ¬ a < b) (h2 : ¬ b < c) : ¬ a < c := by
  intro h
  have := strLt_negTrans a b c (Bool.eq_false_iff.2 fun h => h1 ((strLt_iff _ _).1 h)) (Bool.eq_false_iff.2 fun h => h2 ((strLt_iff _ _).1 h))
  rw [(strLt_iff _ _).2 h] at this
  cases this

theorem lt_tri {a b : Term} (h1 : ¬ a < b) (h2 : ¬ b < a) : a = b :=
  strLt_total a b (Bool.eq_false_iff.2 fun h => h1 ((strLt_iff _ _).1 h)) (Bool.eq_false_iff.2 fun h => h2 ((strLt_iff _ _).1 h))

theorem tewLt_weak : StrictWeak tewLt := by
  constructor
  · intro a b h
    rw [tewLt_false]
    have h' : ¬ (tewLt a b = false) := by rw [h]; exact fun h => (nomatch h)
    rw [tewLt_false] at h'
    by_cases hlt : a.1 < b.1
    · exact ⟨List.lt_asymm hlt, fun he => by rw [he] at hlt; exact absurd hlt (List.lt_irrefl _)⟩
    · have h2 : ¬ (a.1 = b.1 → b.2 ≤ a.2) := fun h3 => h' ⟨hlt, h3⟩
      have he : a.1 = b.1 := Classical.byContradiction fun hn => h2 fun h3 => absurd h3 hn
      have h3 : ¬ b.2 ≤ a.2 := fun h4 => h2 fun _ => h4
      exact ⟨by rw [he]; exact List.lt_irrefl _, fun _ => by omega⟩
  · intro a b c h1 h2
    rw [tewLt_false] at *
    refine ⟨lt_negTrans h1.1 h2.1, fun he => ?_⟩
    have hab : a.1 = b.1 := lt_tri h1.1 (by rw [he]; exact h2.1)
    have := h1.2 hab
    have := h2.2 (by rw [← hab]; exact he)
    omega

/-! ### One segment -/

/-- A segment: what its enumerators read, and the terms of its fields that were written. -/
structure Seg where
  sub : Sub
  fields : List (Nat × List (Term × TI))

/-- The dictionary of the segment is in order. -/
def Seg.OK (s : Seg) : Prop := DictOK s.sub.sfi s.sub.tis s.fields

/-- The enumerator of a segment is in field `n`, the term it stands on and those after it are `L`. -/
structure SubAt (s : Seg) (e : STE) (n : Int) (L : List (Term × TI)) : Prop where
  file : e.file = s.sub.tis
  live : 0 ≤ n → e.field = n ∧
    ((∃ k, At s.sub.sfi.skipInterval s.sub.tis e (entriesOf s.fields n) (k + 1) ∧ k < (entriesOf s.fields n).length ∧ L = (entriesOf s.fields n).drop k) ∨
     ((At s.sub.sfi.skipInterval s.sub.tis e (entriesOf s.fields n) (entriesOf s.fields n).length ∨ Ended s.sub.tis e (entriesOf s.fields n)) ∧ L = []))
  dead : n < 0 → e.field < 0 ∧ L = []

theorem fits_of {s : Seg} (hs : s.OK) (n : Int) : FitsAll start (entriesOf s.fields n) := by
  rcases (hs n).2 with ⟨-, h2⟩ | ⟨sti, -, h2⟩
  · rw [h2]; exact trivial
  · exact h2.fits

theorem sub_step {s : Seg} (hs : s.OK) {e : STE} {n : Int} (hn : 0 ≤ n) (hf : e.field = n) {k : Nat}
    (h : At s.sub.sfi.skipInterval s.sub.tis e (entriesOf s.fields n) k) :
    ∃ e', steNext s.sub.sfi.skipInterval e = .ok (e', ((entriesOf s.fields n).drop k).head?.map (·.1)) ∧ SubAt s e' n ((entriesOf s.fields n).drop k) := by
  by_cases hk : k < (entriesOf s.fields n).length
  · obtain ⟨e', e1, a1, f1⟩ := steNext_at (fits_of hs n) h _ (List.getElem?_eq_getElem hk)
    refine ⟨e', by rw [e1, List.drop_eq_getElem_cons hk]; rfl, a1.file, fun _ => ⟨f1.trans hf, Or.inl ⟨k, a1, hk, rfl⟩⟩, fun h => by omega⟩
  · have hle := h.le
    have he : k = (entriesOf s.fields n).length := by omega
    rw [he] at h
    obtain ⟨e', e1, a1, f1⟩ := steNext_end (si := s.sub.sfi.skipInterval) (Or.inl h)
    rw [List.drop_eq_nil_of_le (by omega)]
    exact ⟨e', e1, a1.file, fun _ => ⟨f1.trans hf, Or.inr ⟨Or.inr a1, rfl⟩⟩, fun h => by omega⟩

/-- The enumerator stands on the first of `L`, and `next` moves it to the next. -/
theorem sub_next {s : Seg} (hs : s.OK) {e : STE} {n : Int} {x : Term × TI} {L : List (Term × TI)} (h : SubAt s e n (x :: L)) :
    seen s.sub.sfi.skipInterval (x.1, e.ti) = seen s.sub.sfi.skipInterval x ∧ e.ti.docFreq = x.2.docFreq ∧
    ∃ e', steNext s.sub.sfi.skipInterval e = .ok (e', L.head?.map (·.1)) ∧ SubAt s e' n L := by
  by_cases hn : 0 ≤ n
  · obtain ⟨hf, h1⟩ := h.live hn
    rcases h1 with ⟨k, a1, hk, hL⟩ | ⟨-, hL⟩
    · rw [List.drop_eq_getElem_cons hk] at hL
      obtain ⟨rfl, rfl⟩ := List.cons.inj hL
      have hti := a1.ti
      rw [entryAt_succ _ _ _ _ (List.getElem?_eq_getElem hk)] at hti
      refine ⟨seen_agrees hti, hti.docFreq, sub_step hs hn hf a1⟩
    · cases hL
  · exact nomatch (h.dead (by omega)).2

theorem setField_at {s : Seg} (hs : s.OK) {e : STE} (hfile : e.file = s.sub.tis) (n : Int) :
    At s.sub.sfi.skipInterval s.sub.tis (steSetField s.sub.sfi e n) (entriesOf s.fields n) 0 ∧ (steSetField s.sub.sfi e n).field = n := by
  constructor
  · unfold steSetField
    rcases (hs n).2 with ⟨h1, h2⟩ | ⟨sti, h1, h2⟩
    · rw [h1, h2]
      exact ⟨hfile, rfl, rfl, Nat.le_refl _, rfl, Agrees.refl _ _, e.is, rfl⟩
    · rw [h1]
      obtain ⟨rest, hb⟩ := h2.bytes
      exact ⟨hfile, h2.size, rfl, Nat.zero_le _, rfl, Agrees.refl _ _, rest, by show e.file.drop _ = _; rw [hfile, hb]; rfl⟩
  · unfold steSetField
    cases s.sub.sfi.dict n <;> rfl

theorem drop_below (t : Term) : ∀ es : List (Term × TI), Asc es → es.drop (below es t) = es.filter fun e => decide (¬ e.1 < t) := by
  intro es
  induction es with
  | nil => intro _; rfl
  | cons e es ih =>
    intro hs
    obtain ⟨h1, h2⟩ := List.pairwise_cons.1 hs
    unfold below at ih ⊢
    rw [List.takeWhile_cons]
    cases hlt : strLt e.1 t with
    | true =>
      have : e.1 < t := (strLt_iff _ _).1 hlt
      rw [if_pos rfl, List.filter_cons_of_neg (by simpa using this)]
      exact ih h2
    | false =>
      have h3 : ¬ e.1 < t := fun h => by rw [(strLt_iff _ _).2 h] at hlt; cases hlt
      rw [if_neg (by simp)]
      symm
      show _ = e :: es
      rw [List.filter_eq_self]
      intro x hx
      simp only [decide_eq_true_eq]
      intro hxt
      rcases List.mem_cons.1 hx with rfl | hx
      · exact h3 hxt
      · exact h3 (List.lt_trans (h1 x hx) hxt)

theorem sub_scan {s : Seg} (hs : s.OK) {e : STE} {n : Int} (hn : 0 ≤ n) (hf : e.field = n)
    (h : (∃ k, At s.sub.sfi.skipInterval s.sub.tis e (entriesOf s.fields n) k) ∨ Ended s.sub.tis e (entriesOf s.fields n)) (t : Term) :
    ∃ e', scanTo s.sub.sfi e t = .ok (e', (((entriesOf s.fields n).filter fun e => decide (¬ e.1 < t)).head?.map (·.1))) ∧
      SubAt s e' n ((entriesOf s.fields n).filter fun e => decide (¬ e.1 < t)) ∧
      e'.term = (((entriesOf s.fields n).filter fun e => decide (¬ e.1 < t)).head?.map (·.1)).getD [] := by
  have hasc := (hs n).1
  rw [← drop_below t _ hasc]
  have nothing : entriesOf s.fields n = [] → scanTo s.sub.sfi e t = .ok (e, none) → ∃ e', scanTo s.sub.sfi e t = .ok (e', (((entriesOf s.fields n).drop (below (entriesOf s.fields n) t)).head?.map (·.1))) ∧
      SubAt s e' n ((entriesOf s.fields n).drop (below (entriesOf s.fields n) t)) ∧ e'.term = (((entriesOf s.fields n).drop (below (entriesOf s.fields n) t)).head?.map (·.1)).getD [] := by
    intro hnil e1
    rw [hnil] at h ⊢
    refine ⟨e, e1, ⟨h.elim (fun ⟨_, h⟩ => h.file) (·.file), fun _ => ⟨hf, Or.inr ⟨?_, rfl⟩⟩, fun h => by omega⟩, ?_⟩
    · rw [hnil]
      refine h.imp (fun ⟨k, h⟩ => ?_) id
      have := h.le
      have hk : k = 0 := by simpa using this
      subst hk
      exact h
    · rcases h with ⟨k, h⟩ | h
      · have := h.le
        have hk : k = 0 := by simpa using this
        subst hk
        exact h.term
      · exact h.term
  rcases (hs n).2 with ⟨h1, h2⟩ | ⟨sti, h1, h2⟩
  · exact nothing h2 (by unfold scanTo; rw [hf, h1])
  · by_cases hpos : 0 < (entriesOf s.fields n).length
    · obtain ⟨e', o, e1, f1, ho, hres⟩ := scanTo_spec hasc h2 hpos (by rw [hf]; exact h1) t h
      refine ⟨e', ?_, ?_⟩
      · rw [e1, ho]
        simp only [List.head?_drop]
      · rcases hres with ⟨hlt, a1⟩ | ⟨hlt, a1⟩
        · refine ⟨⟨a1.file, fun _ => ⟨f1.trans hf, Or.inl ⟨_, a1, hlt, rfl⟩⟩, fun h => by omega⟩, ?_⟩
          rw [a1.term, entryAt_succ _ _ _ _ (List.getElem?_eq_getElem hlt), List.drop_eq_getElem_cons hlt]
          rfl
        · rw [List.drop_eq_nil_of_le (by omega)]
          exact ⟨⟨a1.file, fun _ => ⟨f1.trans hf, Or.inr ⟨Or.inr a1, rfl⟩⟩, fun h => by omega⟩, a1.term⟩
    · refine nothing (List.length_eq_zero_iff.1 (by omega)) ?_
      unfold scanTo
      rw [hf, h1]
      dsimp only
      rw [if_neg (by rw [h2.size]; omega)]

/-! ### All segments -/

/-- What is in the queue: the first of each list that is not empty, with its index. -/
def heads (n : Nat) (Ls : Nat → List (Term × TI)) : List (Term × Nat) :=
  (List.range n).filterMap fun i => (Ls i).head?.map fun x => (x.1, i)

/-- The lists that begin with `t`. -/
def holdersL (n : Nat) (t : Term) (Ls : Nat → List (Term × TI)) : List (Nat × TI) :=
  (List.range n).filterMap fun i => (Ls i).head?.bind fun x => if x.1 = t then some (i, x.2) else none

def upd (Ls : Nat → List (Term × TI)) (i : Nat) (L : List (Term × TI)) : Nat → List (Term × TI) := fun j => if j = i then L else Ls j

/-- The list after `t`. -/
def adv (t : Term) : List (Term × TI) → List (Term × TI)
  | [] => []
  | x :: L => if x.1 = t then L else x :: L

theorem range_split {β : Type} (n i : Nat) (hi : i < n) (g : Nat → Option β) :
    ((List.range n).filterMap g).Perm ((g i).toList ++ ((List.range n).erase i).filterMap g) := by
  have h := (List.perm_cons_erase (List.mem_range.2 hi)).filterMap g
  refine h.trans ?_
  rw [List.filterMap_cons]
  cases g i with
  | none => exact List.Perm.refl _
  | some y => exact List.Perm.refl _

theorem filterMap_congr' {α β : Type} {g g' : α → Option β} : ∀ {l : List α}, (∀ x ∈ l, g x = g' x) → l.filterMap g = l.filterMap g' := by
  intro l
  induction l with
  | nil => intro _; rfl
  | cons x l ih =>
    intro h
    rw [List.filterMap_cons, List.filterMap_cons, h x (List.mem_cons_self ..), ih fun y hy => h y (List.mem_cons_of_mem _ hy)]

theorem filterMap_erase_congr {β : Type} (n i : Nat) (g g' : Nat → Option β) (h : ∀ j, j ≠ i → g j = g' j) :
    ((List.range n).erase i).filterMap g = ((List.range n).erase i).filterMap g' := by
  refine filterMap_congr' fun j hj => h j ?_
  exact ((List.Nodup.mem_erase_iff List.nodup_range).1 hj).1

theorem filterMap_first {β : Type} (g g' : Nat → Option β) (y : β) (i : Nat) (hy : g i = some y) (hi' : g' i = none) (hsame : ∀ j, j ≠ i → g j = g' j) :
    ∀ n, i < n → (∀ j, j < i → g j = none) → (List.range n).filterMap g = y :: (List.range n).filterMap g' := by
  intro n
  induction n with
  | zero => intro h; omega
  | succ n ih =>
    intro h hlow
    rw [List.range_succ, List.filterMap_append, List.filterMap_append]
    by_cases hin : i < n
    · rw [ih hin hlow, List.cons_append]
      congr 2
      rw [List.filterMap_cons, List.filterMap_cons, hsame n (by omega)]
      rfl
    · have he : i = n := by omega
      subst he
      have h0 : ∀ (f : Nat → Option β), (∀ j, j < i → f j = none) → (List.range i).filterMap f = [] := by
        intro f hf
        rw [List.filterMap_eq_nil_iff]
        exact fun j hj => hf j (List.mem_range.1 hj)
      rw [h0 g hlow, h0 g' fun j hj => by rw [← hsame j (by omega)]; exact hlow j hj]
      simp [hy, hi']

/-- The enumerator is in order: segment `i` is in its field `ns i` and `Ls i` is left. -/
structure MOK (segs : List Seg) (ns : Nat → Int) (Ls : Nat → List (Term × TI)) (m : MTE) : Prop where
  len : m.tes.length = segs.length
  subs : ∀ i s, segs[i]? = some s → ∃ e, m.tes[i]? = some e ∧ SubAt s e (ns i) (Ls i)
  queue : PQ.Inv tewLt m.q
  heads : m.q.heap.Perm (heads segs.length Ls)

/-- What is seen of the info of a segment. -/
def obs (segs : List Seg) (t : Term) (x : Nat × TI) : Nat × Option (Term × Nat × Nat × Nat × Option Nat) :=
  (x.1, segs[x.1]?.map fun s => seen s.sub.sfi.skipInterval (t, x.2))

theorem pushTerm_spec (q : PQ.PQ (Term × Nat)) (o : Option Term) (i : Nat) (hq : PQ.Inv tewLt q) :
    ∃ q', pushTerm q o i = .ok q' ∧ PQ.Inv tewLt q' ∧ q'.heap.Perm ((o.map (·, i)).toList ++ q.heap) := by
  cases o with
  | none => exact ⟨q, rfl, hq, List.Perm.refl _⟩
  | some t =>
    obtain ⟨q', h1, h2, -, h3⟩ := PQ.push_spec tewLt_weak q (t, i) hq
    exact ⟨q', h1, h2, h3⟩

theorem heads_mem {n : Nat} {Ls : Nat → List (Term × TI)} {t : Term} {i : Nat} (h : (t, i) ∈ heads n Ls) : i < n ∧ ∃ x L, Ls i = x :: L ∧ x.1 = t := by
  obtain ⟨j, hj, hx⟩ := List.mem_filterMap.1 h
  cases hL : Ls j with
  | nil => rw [hL] at hx; cases hx
  | cons x L =>
    rw [hL] at hx
    simp only [List.head?_cons, Option.map_some, Option.some.injEq, Prod.mk.injEq] at hx
    obtain ⟨h1, rfl⟩ := hx
    exact ⟨List.mem_range.1 hj, x, L, hL, h1⟩

theorem mem_heads {n : Nat} {Ls : Nat → List (Term × TI)} {x : Term × TI} {L : List (Term × TI)} {i : Nat} (hi : i < n) (h : Ls i = x :: L) : (x.1, i) ∈ heads n Ls :=
  List.mem_filterMap.2 ⟨i, List.mem_range.2 hi, by rw [h]; rfl⟩

theorem adv_id {t : Term} {L : List (Term × TI)} (h : ∀ x, L.head? = some x → x.1 ≠ t) : adv t L = L := by
  cases L with
  | nil => rfl
  | cons x L => show (if _ then _ else _) = _; rw [if_neg (h x rfl)]

theorem nextLoop_spec (mr : MR) (segs : List Seg) (hmr : mr.subs = segs.map (·.sub)) (hok : ∀ s ∈ segs, s.OK) (ns : Nat → Int) : ∀ (fuel : Nat) (m : MTE) (Ls : Nat → List (Term × TI)),
    MOK segs ns Ls m → (∀ i, i < segs.length → Asc (Ls i)) → (∀ x ∈ heads segs.length Ls, ¬ x.1 < m.term) →
    (holdersL segs.length m.term Ls).length < fuel → m.tis.length + (holdersL segs.length m.term Ls).length ≤ segs.length →
    ∃ m', nextLoop mr fuel m = .ok m' ∧ MOK segs ns (fun i => adv m.term (Ls i)) m' ∧ m'.term = m.term ∧
      m'.tis.map (obs segs m.term) = m.tis.map (obs segs m.term) ++ (holdersL segs.length m.term Ls).map (obs segs m.term) ∧
      m'.docFreq = m.docFreq + ((holdersL segs.length m.term Ls).map (·.2.docFreq)).sum := by
  intro fuel
  induction fuel with
  | zero => intro m Ls _ _ _ h; omega
  | succ fuel ih =>
    intro m Ls hm hasc hge hfuel hroom
    have stop : (∀ i x, i < segs.length → (Ls i).head? = some x → x.1 ≠ m.term) → MOK segs ns (fun i => adv m.term (Ls i)) m ∧
        m.tis.map (obs segs m.term) = m.tis.map (obs segs m.term) ++ (holdersL segs.length m.term Ls).map (obs segs m.term) ∧
        m.docFreq = m.docFreq + ((holdersL segs.length m.term Ls).map (·.2.docFreq)).sum := by
      intro hno
      have hh : holdersL segs.length m.term Ls = [] := by
        unfold holdersL
        rw [List.filterMap_eq_nil_iff]
        intro i hi
        cases hL : (Ls i).head? with
        | none => rfl
        | some x => simp [hno i x (List.mem_range.1 hi) hL]
      rw [hh]
      refine ⟨⟨hm.len, fun i s hs => ?_, hm.queue, ?_⟩, by simp, by simp⟩
      · obtain ⟨e, h1, h2⟩ := hm.subs i s hs
        have : adv m.term (Ls i) = Ls i := adv_id fun x hx => hno i x (List.getElem?_eq_some_iff.1 hs).1 hx
        exact ⟨e, h1, by rw [this]; exact h2⟩
      · refine hm.heads.trans ?_
        refine List.Perm.of_eq ?_
        unfold MTE.heads
        refine filterMap_congr' fun i hi => ?_
        dsimp only
        rw [adv_id fun x hx => hno i x (List.mem_range.1 hi) hx]
    unfold nextLoop
    cases htop : PQ.top m.q with
    | none =>
      dsimp only
      have hnil : m.q.heap = [] := by simpa [PQ.top] using htop
      have hh := hm.heads
      rw [hnil] at hh
      obtain ⟨h1, h2, h3⟩ := stop fun i x hi hx => by
        cases hL : Ls i with
        | nil => rw [hL] at hx; cases hx
        | cons y L =>
          have := mem_heads hi hL
          rw [← List.Perm.mem_iff hh] at this
          cases this
      exact ⟨m, rfl, h1, rfl, h2, h3⟩
    | some top =>
      obtain ⟨t, i⟩ := top
      dsimp only
      have hne : m.q.heap ≠ [] := by intro h; simp [PQ.top, h] at htop
      obtain ⟨t', q', p1, p2, -, p3, p4, p5⟩ := PQ.pop_spec tewLt_weak m.q hm.queue hne
      rw [htop] at p4
      cases p4
      have hmem : (t, i) ∈ heads segs.length Ls := (hm.heads.mem_iff).1 (p3.mem_iff.1 (List.mem_cons_self ..))
      obtain ⟨hi, x, L, hL, hxt⟩ := heads_mem hmem
      by_cases hc : strcmp m.term t = 0
      · rw [if_pos hc, p1, Res.ok_bind]
        have hmt : m.term = t := strcmp_eq.1 hc
        have hseg : segs[i]? = some segs[i] := List.getElem?_eq_getElem hi
        obtain ⟨e, he, hat⟩ := hm.subs i _ hseg
        rw [hL] at hat
        obtain ⟨o1, o2, e', n1, n2⟩ := sub_next (hok _ (List.getElem_mem hi)) hat
        -- the holders
        have hlow : ∀ j, j < i → ((Ls j).head?.bind fun x => if x.1 = m.term then some (j, x.2) else none) = none := by
          intro j hj
          cases hLj : Ls j with
          | nil => rfl
          | cons y L' =>
            have hy := (hm.heads.mem_iff).2 (mem_heads (n := segs.length) (by omega) hLj)
            have := (tewLt_false.1 (p5 _ hy)).2
            dsimp only at this
            simp only [List.head?_cons, Option.bind_some]
            rw [if_neg]
            intro h
            have := this (by rw [h, hmt])
            omega
        have hascL : Asc (x :: L) := by rw [← hL]; exact hasc i hi
        have hLt : ∀ y, L.head? = some y → y.1 ≠ m.term := by
          intro y hy he
          have := (List.pairwise_cons.1 hascL).1 y (List.mem_of_head? hy)
          rw [he, hmt, hxt] at this
          exact List.lt_irrefl _ this
        have hhold : holdersL segs.length m.term Ls = (i, x.2) :: holdersL segs.length m.term (upd Ls i L) := by
          unfold holdersL
          refine filterMap_first _ _ (i, x.2) i ?_ ?_ ?_ _ hi hlow
          · rw [hL]; simp [hxt, hmt]
          · unfold upd
            rw [if_pos rfl]
            cases hLh : L.head? with
            | none => rfl
            | some y => simp [hLt y hLh]
          · intro j hj
            unfold upd
            rw [if_neg hj]
        rw [hhold] at hfuel hroom
        simp only [List.length_cons] at hfuel hroom
        rw [if_neg (by rw [hmr, List.length_map]; omega)]
        have hsub : mr.subs[i]? = some segs[i].sub := by rw [hmr, List.getElem?_map, hseg]; rfl
        rw [hsub, he]
        simp only [Res.ofOption, Res.ok_bind]
        rw [n1, Res.ok_bind]
        obtain ⟨q2, b1, b2, b3⟩ := pushTerm_spec q' (L.head?.map (·.1)) i p2
        dsimp only
        rw [b1, Res.ok_bind]
        have hm' : MOK segs ns (upd Ls i L) { m with tes := m.tes.set i e', q := q2, docFreq := m.docFreq + e.ti.docFreq, tis := m.tis ++ [(i, e.ti)] } := by
          refine ⟨by simp [hm.len], fun j s hj => ?_, b2, ?_⟩
          · dsimp only
            unfold upd
            by_cases hji : j = i
            · subst hji
              rw [if_pos rfl, List.getElem?_set_self (by rw [hm.len]; exact hi)]
              rw [hseg] at hj
              cases hj
              exact ⟨e', rfl, n2⟩
            · rw [if_neg hji, List.getElem?_set_ne (by omega)]
              exact hm.subs j s hj
          · dsimp only
            refine b3.trans ?_
            have h1 := range_split segs.length i hi fun j => (Ls j).head?.map fun x => (x.1, j)
            have h2 := range_split segs.length i hi fun j => (upd Ls i L j).head?.map fun x => (x.1, j)
            rw [filterMap_erase_congr _ i _ (fun j => (upd Ls i L j).head?.map fun x => (x.1, j)) (fun j hj => by unfold upd; rw [if_neg hj])] at h1
            have h3 := p3.trans (hm.heads.trans h1)
            rw [hL] at h3
            simp only [List.head?_cons, Option.map_some, Option.toList_some, List.cons_append, List.nil_append, hxt] at h3
            have h4 := h3.cons_inv
            refine (List.Perm.append_left _ h4).trans ?_
            refine List.Perm.trans ?_ h2.symm
            refine List.Perm.of_eq ?_
            congr 1
            unfold upd
            rw [if_pos rfl, Option.map_map]
            rfl
        have hasc' : ∀ j, j < segs.length → Asc (upd Ls i L j) := by
          intro j hj
          unfold upd
          by_cases hji : j = i
          · rw [if_pos hji]; exact (List.pairwise_cons.1 hascL).2
          · rw [if_neg hji]; exact hasc j hj
        have hge' : ∀ y ∈ heads segs.length (upd Ls i L), ¬ y.1 < m.term := by
          intro y hy
          obtain ⟨j, hj, hyj⟩ := List.mem_filterMap.1 hy
          unfold upd at hyj
          by_cases hji : j = i
          · rw [if_pos hji] at hyj
            cases hLh : L.head? with
            | none => rw [hLh] at hyj; cases hyj
            | some z =>
              rw [hLh] at hyj
              simp only [Option.map_some, Option.some.injEq] at hyj
              subst hyj
              have := (List.pairwise_cons.1 hascL).1 z (List.mem_of_head? hLh)
              rw [hmt, ← hxt]
              exact List.lt_asymm this
          · rw [if_neg hji] at hyj
            exact hge y (List.mem_filterMap.2 ⟨j, hj, hyj⟩)
        obtain ⟨m', r1, r2, r3, r4, r5⟩ := ih _ _ hm' hasc' hge' (by dsimp only; omega) (by dsimp only; rw [List.length_append, List.length_singleton]; omega)
        refine ⟨m', r1, ?_, r3, ?_, ?_⟩
        · have : (fun j => adv m.term (upd Ls i L j)) = fun j => adv m.term (Ls j) := by
            funext j
            unfold upd
            by_cases hji : j = i
            · rw [if_pos hji, hji, hL, adv_id hLt]
              show _ = if _ then _ else _
              rw [if_pos (by rw [hxt, hmt])]
            · rw [if_neg hji]
          rw [← this]
          exact r2
        · rw [r4, hhold]
          dsimp only
          rw [List.map_append, List.append_assoc]
          congr 1
          rw [List.map_cons, List.map_cons]
          simp only [List.map_nil, List.cons_append, List.nil_append]
          congr 1
          unfold obs
          dsimp only
          rw [hseg]
          simp only [Option.map_some]
          rw [hmt, ← hxt, o1]
        · rw [r5, hhold]
          dsimp only
          rw [List.map_cons, List.sum_cons, o2]
          dsimp only
          omega
      · rw [if_neg hc]
        obtain ⟨h1, h2, h3⟩ := stop fun j y hj hy => by
          intro he
          cases hLj : Ls j with
          | nil => rw [hLj] at hy; cases hy
          | cons z L' =>
            rw [hLj] at hy
            cases hy
            have hy' := mem_heads hj hLj
            have h1 := (tewLt_false.1 (p5 _ ((hm.heads.mem_iff).2 hy'))).1
            have h2 := hge _ hmem
            dsimp only at h1 h2
            rw [he] at h1
            exact hc (strcmp_eq.2 (lt_tri h1 h2))
        exact ⟨m, rfl, h1, rfl, h2, h3⟩

/-- One call of `next`. -/
theorem mteNext_spec (mr : MR) (segs : List Seg) (hmr : mr.subs = segs.map (·.sub)) (hok : ∀ s ∈ segs, s.OK) (ns : Nat → Int) (m : MTE) (Ls : Nat → List (Term × TI))
    (hm : MOK segs ns Ls m) (hasc : ∀ i, i < segs.length → Asc (Ls i)) :
    (heads segs.length Ls = [] ∧ mteNext mr m = .ok ({ m with term := [] }, none)) ∨
    ∃ t m', mteNext mr m = .ok (m', some t) ∧ m'.term = t ∧ MOK segs ns (fun i => adv t (Ls i)) m' ∧ (∃ i, (t, i) ∈ heads segs.length Ls) ∧
      (∀ x ∈ heads segs.length Ls, ¬ x.1 < t) ∧
      m'.tis.map (obs segs t) = (holdersL segs.length t Ls).map (obs segs t) ∧
      m'.docFreq = ((holdersL segs.length t Ls).map (·.2.docFreq)).sum := by
  unfold mteNext
  cases htop : PQ.top m.q with
  | none =>
    left
    have hnil : m.q.heap = [] := by simpa [PQ.top] using htop
    have := hm.heads
    rw [hnil] at this
    exact ⟨List.nil_perm.1 this, rfl⟩
  | some top =>
    right
    obtain ⟨t, i⟩ := top
    dsimp only
    have hne : m.q.heap ≠ [] := by intro h; simp [PQ.top, h] at htop
    obtain ⟨t', q', p1, p2, -, p3, p4, p5⟩ := PQ.pop_spec tewLt_weak m.q hm.queue hne
    rw [htop] at p4
    cases p4
    have hmin : ∀ x ∈ heads segs.length Ls, ¬ x.1 < t := fun x hx => (tewLt_false.1 (p5 _ (hm.heads.mem_iff.2 hx))).1
    have hle : (holdersL segs.length t Ls).length ≤ (heads segs.length Ls).length := by
      have : ∀ l : List Nat, (l.filterMap fun i => (Ls i).head?.bind fun x => if x.1 = t then some (i, x.2) else none).length ≤ (l.filterMap fun i => (Ls i).head?.map fun x => (x.1, i)).length := by
        intro l
        induction l with
        | nil => exact Nat.le_refl _
        | cons i l ih =>
          rw [List.filterMap_cons, List.filterMap_cons]
          cases (Ls i).head? with
          | none => exact ih
          | some x =>
            simp only [Option.bind_some, Option.map_some, List.length_cons]
            by_cases hx : x.1 = t
            · rw [if_pos hx]
              simp only [List.length_cons]; omega
            · rw [if_neg hx]
              dsimp only
              omega
      exact this _
    have hroom : (holdersL segs.length t Ls).length ≤ segs.length := by
      have := List.length_filterMap_le (fun i => (Ls i).head?.bind fun x => if x.1 = t then some (i, x.2) else none) (List.range segs.length)
      rwa [List.length_range] at this
    obtain ⟨m', r1, r2, r3, r4, r5⟩ := nextLoop_spec mr segs hmr hok ns (m.q.heap.length + 1) { m with term := t, docFreq := 0, tis := [] } Ls ⟨hm.len, hm.subs, hm.queue, hm.heads⟩ hasc hmin
      (by dsimp only; rw [hm.heads.length_eq]; omega) (by dsimp only; simpa using hroom)
    refine ⟨t, m', by rw [r1, Res.ok_bind, r3], r3, r2, ⟨i, hm.heads.mem_iff.1 (p3.mem_iff.1 (List.mem_cons_self ..))⟩, hmin, by simpa using r4, by simpa using r5⟩

/-- The loops over the wrappers. -/
theorem eachSub_spec (act : Nat → Sub → STE → Res (STE × Option Term)) (ns : Nat → Int) (Ls : Nat → List (Term × TI)) : ∀ (segs : List Seg) (i : Nat) (tes : List STE) (q : PQ.PQ (Term × Nat)),
    tes.length = segs.length → PQ.Inv tewLt q →
    (∀ j s e, segs[j]? = some s → tes[j]? = some e → ∃ e', act (i + j) s.sub e = .ok (e', (Ls (i + j)).head?.map (·.1)) ∧ SubAt s e' (ns (i + j)) (Ls (i + j))) →
    ∃ tes' q', eachSub act i (segs.map (·.sub)) tes q = .ok (tes', q') ∧ tes'.length = segs.length ∧ PQ.Inv tewLt q' ∧
      q'.heap.Perm (q.heap ++ (List.range' i segs.length).filterMap fun j => (Ls j).head?.map fun x => (x.1, j)) ∧
      ∀ j s, segs[j]? = some s → ∃ e', tes'[j]? = some e' ∧ SubAt s e' (ns (i + j)) (Ls (i + j)) := by
  intro segs
  induction segs with
  | nil =>
    intro i tes q hl hq _
    exact ⟨[], q, rfl, rfl, hq, by simp, fun j s h => by simp at h⟩
  | cons s segs ih =>
    intro i tes q hl hq hact
    cases tes with
    | nil => cases hl
    | cons e tes =>
      obtain ⟨e', a1, a2⟩ := hact 0 s e rfl rfl
      rw [Nat.add_zero] at a1 a2
      obtain ⟨q2, b1, b2, b3⟩ := pushTerm_spec q ((Ls i).head?.map (·.1)) i hq
      obtain ⟨tes', q', c1, c2, c3, c4, c5⟩ := ih (i + 1) tes q2 (by simpa using hl) b2 (fun j s e hs he => by
        have := hact (j + 1) s e (by simpa using hs) (by simpa using he)
        rwa [show i + (j + 1) = i + 1 + j by omega] at this)
      refine ⟨e' :: tes', q', ?_, by simp [c2], c3, ?_, ?_⟩
      · simp only [List.map_cons, eachSub]
        rw [a1, Res.ok_bind]
        dsimp only
        rw [b1, Res.ok_bind, c1]
        rfl
      · refine c4.trans ?_
        rw [List.length_cons, List.range'_succ]
        refine (List.Perm.append_right _ b3).trans ?_
        rw [List.filterMap_cons]
        cases (Ls i).head? with
        | none => simp
        | some x =>
          simp only [Option.map_some, Option.toList_some, List.cons_append, List.nil_append]
          exact (List.perm_middle).symm
      · intro j s' hj
        cases j with
        | zero =>
          simp only [List.getElem?_cons_zero, Option.some.injEq] at hj
          subst hj
          exact ⟨e', rfl, a2⟩
        | succ j =>
          rw [List.getElem?_cons_succ] at hj
          have := c5 j s' hj
          rw [show i + (j + 1) = i + 1 + j by omega]
          simpa using this

end Ferret.MTE
