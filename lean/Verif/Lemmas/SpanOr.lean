import Verif.Lemmas.Span
import Verif.Lemmas.PriorityQueue
import Verif.Lemmas.ScorerDis

/-! The enumerator of the spans of any of some queries. -/

namespace Ferret.Span

open Ferret.Spec (SpLe SpLex Proper StrictWeak)
open Ferret.Scorer (perm_map_lift heap4_set)

variable {σ : Type} {o : Ops σ} {R : σ → Caps → Option Sp → List Sp → Prop} {D : σ → Caps → Prop}

/-! ### The queue -/

theorem pop_set {α : Type} (lt : α → α → Bool) (q : PQ.PQ α) (t a : α) (rest : List α) (h : q.heap = t :: rest) :
    (PQ.pop lt { q with heap := a :: rest } >>= fun p => Res.ok p.2) = PQ.pop lt q >>= fun p => Res.ok p.2 := by
  unfold PQ.pop
  rw [h]
  dsimp only
  have e : (PQ.put (a :: rest) 1 ((a :: rest).getLast (by simp))).dropLast = (PQ.put (t :: rest) 1 ((t :: rest).getLast (by simp))).dropLast := by
    cases rest with
    | nil => simp [PQ.put]
    | cons y ys => simp [PQ.put]
  rw [e]
  cases PQ.down lt (PQ.put (t :: rest) 1 ((t :: rest).getLast (by simp))).dropLast <;> rfl

/-- The top has moved to `a`. -/
theorem settle_true {α : Type} {lt : α → α → Bool} (hlt : StrictWeak lt) {q : PQ.PQ α} (hq : PQ.Inv lt q) {t : α} {rest : List α}
    (h : q.heap = t :: rest) (a : α) : ∃ q', settle lt q (true, a) = .ok q' ∧ PQ.Inv lt q' ∧ q'.heap.Perm (a :: rest) := by
  unfold settle
  obtain ⟨r, h1, h2, h3⟩ := PQ.down_spec hlt (q.heap.set 0 a) (heap4_set hq.heap a)
  dsimp only
  rw [if_pos rfl, h1]
  have h4 : r.Perm (a :: rest) := by rw [h] at h3; exact h3
  refine ⟨_, rfl, ⟨h2, ?_⟩, h4⟩
  have := hq.mem
  rw [h] at this
  dsimp only
  rw [h4.length_eq]
  exact this

/-- The top has come to its end. -/
theorem settle_false {α : Type} {lt : α → α → Bool} (hlt : StrictWeak lt) {q : PQ.PQ α} (hq : PQ.Inv lt q) {t : α} {rest : List α}
    (h : q.heap = t :: rest) (a : α) : ∃ q', settle lt q (false, a) = .ok q' ∧ PQ.Inv lt q' ∧ q'.heap.Perm rest := by
  unfold settle
  dsimp only
  rw [if_neg (by simp), h, List.set_cons_zero, pop_set lt q t a rest h]
  obtain ⟨t', q', h1, h2, _, h4, h5, _⟩ := PQ.pop_spec hlt q hq (by rw [h]; simp)
  rw [h1]
  refine ⟨q', rfl, h2, ?_⟩
  have : t' = t := by rw [PQ.top, h] at h5; simpa using h5.symm
  subst this
  rw [h] at h4
  exact h4.cons_inv

/-! ### Order -/

theorem spLt_iff {a b : Sp} : spLt a b = true ↔ a.doc < b.doc ∨ a.doc = b.doc ∧ (a.start < b.start ∨ a.start = b.start ∧ a.stop < b.stop) := by
  unfold spLt
  split
  · split
    · simp only [decide_eq_true_eq]; omega
    · simp only [decide_eq_true_eq]; omega
  · simp only [decide_eq_true_eq]; omega

theorem spLt_false {a b : Sp} : spLt a b = false ↔ SpLex b a := by
  rw [← Bool.not_eq_true, spLt_iff]
  unfold SpLex
  omega

theorem itemLt_weak : StrictWeak (itemLt (σ := σ)) where
  asymm a b h := by
    unfold itemLt at *
    rw [spLt_iff] at h
    rw [spLt_false]
    unfold SpLex; omega
  negTrans a b c h1 h2 := by
    unfold itemLt at *
    rw [spLt_false] at *
    unfold SpLex at *; omega

theorem lex_le {a b : Sp} (h : SpLex a b) : SpLe a b := by unfold SpLex SpLe at *; omega

theorem lex_refl (a : Sp) : SpLex a a := by unfold SpLex; omega

theorem lex_trans {a b c : Sp} (h : SpLex a b) (g : SpLex b c) : SpLex a c := by unfold SpLex at *; omega

theorem lex_antisymm {a b : Sp} (h : SpLex a b) (g : SpLex b a) : a = b := by
  obtain ⟨_, _, _⟩ := a; obtain ⟨_, _, _⟩ := b
  simp only [SpLex, Sp.mk.injEq] at *; omega

/-- An enumerator of the queue, where it is and what is ahead. -/
structure Gh (σ : Type) where
  it : Item σ
  k : Caps
  L : List Sp

def Gh.all (g : Gh σ) : List Sp := g.it.at_ :: g.L

structure GhOK (R : σ → Caps → Option Sp → List Sp → Prop) (sk : Bool) (g : Gh σ) : Prop where
  st : R g.it.st g.k (some g.it.at_) g.L
  lex : g.all.Pairwise SpLex
  sk : sk = true → g.k.skips = true

def total (gs : List (Gh σ)) : List Sp := gs.flatMap Gh.all

/-- The queue of these enumerators. -/
structure QS (R : σ → Caps → Option Sp → List Sp → Prop) (sk : Bool) (q : PQ.PQ (Item σ)) (gs : List (Gh σ)) : Prop where
  inv : PQ.Inv itemLt q
  heap : q.heap = gs.map (·.it)
  ok : ∀ g ∈ gs, GhOK R sk g

theorem QS.push {sk : Bool} {q : PQ.PQ (Item σ)} {gs : List (Gh σ)} (h : QS R sk q gs) (g : Gh σ) (hg : GhOK R sk g) :
    ∃ q' gs', PQ.push itemLt q g.it = .ok q' ∧ QS R sk q' gs' ∧ gs'.Perm (g :: gs) := by
  obtain ⟨q', h1, h2, _, h4⟩ := PQ.push_spec itemLt_weak q g.it h.inv
  rw [h.heap] at h4
  obtain ⟨gs', h5, h6⟩ := perm_map_lift (fun g : Gh σ => g.it) h4 (g :: gs) rfl
  refine ⟨q', gs', h1, ⟨h2, h6.symm, fun x hx => ?_⟩, h5⟩
  rcases List.mem_cons.1 (h5.mem_iff.1 hx) with rfl | h7
  · exact hg
  · exact h.ok x h7

theorem QS.moved {sk : Bool} {q : PQ.PQ (Item σ)} {t : Gh σ} {gs : List (Gh σ)} (h : QS R sk q (t :: gs)) (g : Gh σ) (hg : GhOK R sk g) :
    ∃ q' gs', settle itemLt q (true, g.it) = .ok q' ∧ QS R sk q' gs' ∧ gs'.Perm (g :: gs) := by
  obtain ⟨q', h1, h2, h4⟩ := settle_true itemLt_weak h.inv (t := t.it) (rest := gs.map fun g : Gh σ => g.it) h.heap g.it
  obtain ⟨gs', h5, h6⟩ := perm_map_lift (fun g : Gh σ => g.it) h4 (g :: gs) rfl
  refine ⟨q', gs', h1, ⟨h2, h6.symm, fun x hx => ?_⟩, h5⟩
  rcases List.mem_cons.1 (h5.mem_iff.1 hx) with rfl | h7
  · exact hg
  · exact h.ok x (List.mem_cons_of_mem _ h7)

theorem QS.ended {sk : Bool} {q : PQ.PQ (Item σ)} {t : Gh σ} {gs : List (Gh σ)} (h : QS R sk q (t :: gs)) (a : Item σ) :
    ∃ q' gs', settle itemLt q (false, a) = .ok q' ∧ QS R sk q' gs' ∧ gs'.Perm gs := by
  obtain ⟨q', h1, h2, h4⟩ := settle_false itemLt_weak h.inv (t := t.it) (rest := gs.map fun g : Gh σ => g.it) h.heap a
  obtain ⟨gs', h5, h6⟩ := perm_map_lift (fun g : Gh σ => g.it) h4 gs rfl
  exact ⟨q', gs', h1, ⟨h2, h6.symm, fun x hx => h.ok x (List.mem_cons_of_mem _ (h5.mem_iff.1 hx))⟩, h5⟩

theorem total_perm {gs gs' : List (Gh σ)} (h : gs.Perm gs') : (total gs).Perm (total gs') := h.flatMap_right _

/-- The top of the queue is the first of all spans. -/
theorem QS.top {sk : Bool} {q : PQ.PQ (Item σ)} {gs : List (Gh σ)} (h : QS R sk q gs) {M : List Sp} (hM : M.Pairwise SpLex)
    (hp : (total gs).Perm M) : match M with
      | [] => q.heap = []
      | z :: _ => ∃ t gs', gs = t :: gs' ∧ t.it.at_ = z := by
  cases gs with
  | nil =>
    have : M = [] := by simpa [total] using hp.symm.eq_nil
    subst this; exact h.heap
  | cons t gs =>
    have hmin := PQ.heap_top_min itemLt_weak h.inv.heap t.it (by rw [h.heap]; rfl)
    cases M with
    | nil => have := hp.length_eq; simp [total, Gh.all] at this
    | cons z M =>
      refine ⟨t, gs, rfl, ?_⟩
      have hall : ∀ x ∈ total (t :: gs), SpLex t.it.at_ x := by
        intro x hx
        obtain ⟨g, hg, hx⟩ := List.mem_flatMap.1 hx
        have h1 : SpLex t.it.at_ g.it.at_ := by
          have := hmin g.it (by rw [h.heap]; exact List.mem_map_of_mem hg)
          exact spLt_false.1 this
        rcases List.mem_cons.1 hx with rfl | hx
        · exact h1
        · exact lex_trans h1 ((List.pairwise_cons.1 (h.ok g hg).lex).1 x hx)
      have hmem : t.it.at_ ∈ z :: M := hp.mem_iff.1 (by simp [total, Gh.all])
      have hz : z ∈ total (t :: gs) := hp.mem_iff.2 (List.mem_cons_self ..)
      have h2 : SpLex z t.it.at_ := by
        rcases List.mem_cons.1 hmem with h | h
        · rw [h]; exact lex_refl _
        · exact (List.pairwise_cons.1 hM).1 _ h
      exact lex_antisymm (hall z hz) h2

/-! ### The enumerator -/

def OrR (R : σ → Caps → Option Sp → List Sp → Prop) (e : OrE σ) (k : Caps) (c : Option Sp) (L : List Sp) : Prop :=
  k.early = false ∧ k.late = false ∧ (c.toList ++ L).Pairwise SpLex ∧
  match c with
  | none => e.firstTime = true ∧ PQ.Inv itemLt e.queue ∧ e.queue.heap = [] ∧
      ∃ ss : List (σ × Caps × List Sp), e.subs = ss.map (·.1) ∧ (∀ s ∈ ss, R s.1 s.2.1 none s.2.2 ∧ s.2.2.Pairwise SpLex ∧
        (k.skips = true → s.2.1.skips = true)) ∧ (ss.flatMap (·.2.2)).Perm L
  | some x => e.firstTime = false ∧ ∃ gs, QS R k.skips e.queue gs ∧ (total gs).Perm (x :: L)

def OrD (_e : OrE σ) (k : Caps) : Prop := k.late = false

/-- The state after a move. -/
theorem or_stepped {e : OrE σ} {k : Caps} (h1 : k.early = false) (h2 : k.late = false) {q : PQ.PQ (Item σ)} {gs : List (Gh σ)}
    (h : QS R k.skips q gs) {M : List Sp} (hM : M.Pairwise SpLex) (hp : (total gs).Perm M) (hf : e.firstTime = false) (hq : e.queue = q) :
    Stepped (OrR R) OrD k (decide (q.heap.length ≠ 0), e) M := by
  have := h.top hM hp
  cases M with
  | nil => simp only at this; rw [this]; exact ⟨rfl, h2⟩
  | cons z M =>
    obtain ⟨t, gs', h3, h4⟩ := this
    refine ⟨?_, h1, h2, hM, hf, gs, by rw [hq]; exact h, hp⟩
    rw [h.heap, h3]; simp

theorem orFill_spec (g : Good o R D) {sk : Bool} {move : σ → Res (Bool × σ)} {f : List Sp → List Sp} : ∀ (ss : List (σ × Caps × List Sp))
    (q : PQ.PQ (Item σ)) (gs : List (Gh σ)), QS R sk q gs →
    (∀ s ∈ ss, (∃ r, move s.1 = .ok r ∧ Stepped R D s.2.1 r (f s.2.2)) ∧ (f s.2.2).Pairwise SpLex ∧ (sk = true → s.2.1.skips = true)) →
    ∃ q' gs', orFill o move (ss.map (·.1)) q = .ok q' ∧ QS R sk q' gs' ∧ (total gs').Perm (total gs ++ ss.flatMap fun s => f s.2.2)
  | [], q, gs, h, _ => ⟨q, gs, rfl, h, by simp⟩
  | s :: ss, q, gs, h, hs => by
    obtain ⟨⟨r, h1, h2⟩, h3, h4⟩ := hs s (List.mem_cons_self ..)
    have hss := fun x hx => hs x (List.mem_cons_of_mem _ hx)
    simp only [List.map_cons, orFill]
    rw [h1, Res.ok_bind]
    cases hf : f s.2.2 with
    | nil =>
      rw [hf] at h2
      rw [h2.1, if_neg (by simp)]
      obtain ⟨q', gs', h5, h6, h7⟩ := orFill_spec g ss q gs h hss
      exact ⟨q', gs', h5, h6, by simpa [hf] using h7⟩
    | cons x L =>
      rw [hf] at h2 h3
      rw [h2.1, if_pos rfl, g.cur h2.2, Res.ok_bind]
      obtain ⟨q1, gs1, h5, h6, h7⟩ := h.push ⟨⟨x, r.2⟩, s.2.1, L⟩ ⟨h2.2, h3, h4⟩
      dsimp only at h5
      rw [h5, Res.ok_bind]
      obtain ⟨q', gs', h8, h9, h10⟩ := orFill_spec g ss q1 gs1 h6 hss
      refine ⟨q', gs', h8, h9, h10.trans ?_⟩
      have h11 := total_perm h7
      simp only [List.flatMap_cons, hf]
      refine (h11.append_right _).trans ?_
      show (x :: L ++ total gs ++ _).Perm _
      refine (List.Perm.append_right _ (List.perm_append_comm (l₁ := x :: L) (l₂ := total gs))).trans ?_
      rw [List.append_assoc]

/-- The enumerators after the first has moved, with the spans `K` ahead. -/
def MovedTo (K : List Sp) (t : Gh σ) (gs gs' : List (Gh σ)) : Prop :=
  match K with
  | [] => gs'.Perm gs
  | x :: L => ∃ s, gs'.Perm (⟨⟨x, s⟩, t.k, L⟩ :: gs)

theorem MovedTo.total {K : List Sp} {t : Gh σ} {gs gs' : List (Gh σ)} (h : MovedTo K t gs gs') : (total gs').Perm (K ++ total gs) := by
  cases K with
  | nil => exact total_perm h
  | cons x L => obtain ⟨s, h⟩ := h; exact total_perm h

theorem orMove_spec (g : Good o R D) {sk : Bool} {move : σ → Res (Bool × σ)} {q : PQ.PQ (Item σ)} {t : Gh σ} {gs : List (Gh σ)}
    (h : QS R sk q (t :: gs)) {K : List Sp} (hm : ∃ r, move t.it.st = .ok r ∧ Stepped R D t.k r K) (hK : K.Pairwise SpLex) :
    ∃ q' gs', orMove o move q t.it = .ok q' ∧ QS R sk q' gs' ∧ MovedTo K t gs gs' := by
  obtain ⟨r, h1, h2⟩ := hm
  unfold orMove
  rw [h1, Res.ok_bind]
  cases K with
  | nil =>
    rw [h2.1, if_neg (by simp)]
    obtain ⟨q', gs', h3, h4, h5⟩ := h.ended ⟨t.it.at_, r.2⟩
    exact ⟨q', gs', h3, h4, h5⟩
  | cons x L =>
    rw [h2.1, if_pos rfl, g.cur h2.2, Res.ok_bind]
    obtain ⟨q', gs', h3, h4, h5⟩ := h.moved ⟨⟨x, r.2⟩, t.k, L⟩ ⟨h2.2, hK, (h.ok t (List.mem_cons_self ..)).sk⟩
    exact ⟨q', gs', h3, h4, r.2, h5⟩

/-- How many of the enumerators are before a document. -/
def behind (t : Int) (gs : List (Gh σ)) : Nat := gs.countP fun g => docLt t g.it.at_

theorem filter_all_doc {t : Int} {L : List Sp} (h : ∀ x ∈ L, ¬ x.doc < t) : (L.filter fun x => !docLt t x) = L :=
  List.filter_eq_self.2 fun x hx => by simpa [docLt] using h x hx

theorem orSkipLoop_spec (g : Good o R D) (t : Int) (M : List Sp) (hM : M.Pairwise SpLex) (hpr : ∀ x ∈ M, Proper x) :
    ∀ (fuel : Nat) (q : PQ.PQ (Item σ)) (gs : List (Gh σ)),
    QS R true q gs → (∃ N, (∀ x ∈ N, Proper x) ∧ (total gs).Perm N ∧ (N.filter fun x => !docLt t x).Perm M) → behind t gs < fuel →
    ∃ q' gs', orSkipLoop o t fuel q = .ok q' ∧ QS R true q' gs' ∧ (total gs').Perm M
  | 0, _, _, _, _, h => by omega
  | fuel + 1, q, gs, hq, hN, hf => by
    unfold orSkipLoop
    obtain ⟨N, hNp, hN1, hN2⟩ := hN
    have hlex : ∀ x ∈ gs, Ord x.all := fun x hx =>
      ⟨(hq.ok x hx).lex.imp lex_le, fun y hy => hNp y (hN1.mem_iff.1 (List.mem_flatMap.2 ⟨x, hx, hy⟩))⟩
    cases hgs : gs with
    | nil =>
      have : PQ.top q = none := by rw [PQ.top, hq.heap, hgs]; rfl
      rw [this]
      refine ⟨q, gs, rfl, hq, ?_⟩
      refine List.Perm.trans ?_ hN2
      have : N = [] := by rw [hgs] at hN1; simpa [total] using hN1.symm.eq_nil
      rw [hgs, this]; exact List.Perm.refl _
    | cons u gs1 =>
      have : PQ.top q = some u.it := by rw [PQ.top, hq.heap, hgs]; rfl
      rw [this]
      dsimp only
      by_cases hd : u.it.at_.doc < t
      · rw [if_pos hd]
        have hq' := hq; rw [hgs] at hq'
        have hou := hlex u (by rw [hgs]; exact List.mem_cons_self ..)
        have huk := hq'.ok u (List.mem_cons_self ..)
        have hKl : (u.L.dropWhile (docLt t)).Pairwise SpLex :=
          ((List.pairwise_cons.1 huk.lex).2).sublist (List.dropWhile_sublist _)
        obtain ⟨q', gs', h1, h2, h3⟩ := orMove_spec g (move := fun s => o.skipTo s t) hq' (g.skip (t := t) huk.st hou (huk.sk rfl) hd) hKl
        rw [h1, Res.ok_bind]
        rw [hgs] at hN1 hf
        have hKf : u.L.dropWhile (docLt t) = u.all.filter fun x => !docLt t x := by
          rw [dropWhile_ord (hou.sub (List.sublist_cons_self _ _))]
          rw [Gh.all, List.filter_cons_of_neg (by simpa [docLt] using hd)]
        have htot : ∃ N', (∀ x ∈ N', Proper x) ∧ (total gs').Perm N' ∧ (N'.filter fun x => !docLt t x).Perm M := by
          refine ⟨u.L.dropWhile (docLt t) ++ total gs1, ?_, ?_, ?_⟩
          · intro x hx
            rcases List.mem_append.1 hx with hx | hx
            · exact hou.2 x (List.mem_cons_of_mem _ (List.dropWhile_subset _ hx))
            · exact hNp x (hN1.mem_iff.1 (by rw [total, List.flatMap_cons]; exact List.mem_append_right _ hx))
          · exact h3.total
          · refine List.Perm.trans ?_ hN2
            refine List.Perm.trans ?_ (hN1.filter _)
            rw [hKf, total, total, List.flatMap_cons, List.filter_append, List.filter_append, List.filter_filter]
            simp
        refine orSkipLoop_spec g t M hM hpr fuel q' gs' h2 htot ?_
        have hb : behind t (u :: gs1) = behind t gs1 + 1 := by simp [behind, List.countP_cons, docLt, hd]
        have hb' : behind t gs' = behind t gs1 := by
          revert h3
          cases hK : u.L.dropWhile (docLt t) with
          | nil => intro h3; exact h3.countP_eq _
          | cons x L =>
            rintro ⟨s, h3⟩
            have hx : docLt t x = false := by
              have := List.head?_dropWhile_not (docLt t) u.L
              rw [hK] at this; simpa using this
            refine (h3.countP_eq _).trans ?_
            rw [List.countP_cons_of_neg (by simp [hx])]; rfl
        omega
      · rw [if_neg hd]
        refine ⟨q, gs, rfl, hq, ?_⟩
        rw [hgs] at hN1 ⊢
        have hmin := PQ.heap_top_min itemLt_weak hq.inv.heap u.it (by rw [hq.heap, hgs]; rfl)
        refine hN1.trans ?_
        rw [filter_all_doc] at hN2
        · exact hN2
        · intro x hx
          obtain ⟨v, hv, hx⟩ := List.mem_flatMap.1 (hN1.mem_iff.2 hx)
          have h1 := spLt_false.1 (hmin v.it (by rw [hq.heap, hgs]; exact List.mem_map_of_mem hv))
          have h2 : SpLex v.it.at_ x := by
            rcases List.mem_cons.1 hx with rfl | hx
            · exact lex_refl _
            · exact (List.pairwise_cons.1 (hq.ok v (by rw [hgs]; exact hv)).lex).1 x hx
          unfold SpLex at h1 h2
          omega

theorem behind_le (o : Ops σ) (t : Int) : ∀ gs : List (Gh σ), behind t gs ≤ orLeft o (gs.map (·.it))
  | [] => Nat.le_refl _
  | g :: gs => by
    have := behind_le o t gs
    simp only [behind, orLeft, List.countP_cons, List.map_cons, List.sum_cons] at *
    split <;> omega

theorem good_or (g : Good o R D) : Good (orOps o) (OrR R) OrD where
  left := by
    rintro s k c L ⟨_, _, _, h⟩
    cases c with
    | none =>
      obtain ⟨h1, _, _, ss, h2, h3, h4⟩ := h
      simp only [orOps, h1, if_true]
      rw [h2, ← h4.length_eq, List.length_flatMap, List.map_map]
      clear h4 h2
      induction ss with
      | nil => exact Nat.le_refl _
      | cons a ss ih =>
        simp only [List.map_cons, List.sum_cons, Function.comp]
        have := g.left (h3 a (List.mem_cons_self ..)).1
        have := ih fun s hs => h3 s (List.mem_cons_of_mem _ hs)
        omega
    | some x =>
      obtain ⟨h1, gs, h2, h3⟩ := h
      simp only [orOps, h1]
      have h4 := h3.length_eq
      rw [h2.heap]
      have h5 : (total gs).length ≤ orLeft o (gs.map (·.it)) := by
        have hok := h2.ok
        clear h2 h3 h4
        induction gs with
        | nil => exact Nat.le_refl _
        | cons a gs ih =>
          simp only [total, List.flatMap_cons, List.length_append, orLeft, List.map_cons, List.sum_cons, Gh.all, List.length_cons] at *
          have := g.left (hok a (List.mem_cons_self ..)).st
          have := ih fun s hs => hok s (List.mem_cons_of_mem _ hs)
          omega
      simp only [List.length_cons] at h4
      simp only [Bool.false_eq_true, if_false]
      omega
  cur := by
    rintro s k x L ⟨_, _, hl, h1, gs, h2, h3⟩
    obtain ⟨t, gs', h4, h5⟩ := h2.top hl h3
    simp only [orOps, PQ.top, h2.heap, h4, List.map_cons, List.head?_cons, h5]
  early := by
    rintro s k L ⟨h, _⟩ hk
    rw [h] at hk; cases hk
  next := by
    rintro s k c L ⟨hke, hkl, hl, h⟩ ho
    show ∃ r, orNext o s = .ok r ∧ _
    unfold orNext
    cases c with
    | none =>
      obtain ⟨h1, h2, h3, ss, h4, h5, h6⟩ := h
      rw [if_pos h1, h4]
      have hoss : ∀ x ∈ ss, Ord x.2.2 := fun x hx =>
        ⟨(h5 x hx).2.1.imp lex_le, fun y hy => ho.2 y (h6.mem_iff.1 (List.mem_flatMap.2 ⟨x, hx, hy⟩))⟩
      obtain ⟨q', gs', h7, h8, h9⟩ := orFill_spec g (sk := k.skips) (move := o.next) (f := fun l => l) ss s.queue []
        ⟨h2, h3, fun _ h => nomatch h⟩ fun x hx => ⟨g.next (h5 x hx).1 (hoss x hx), (h5 x hx).2⟩
      rw [h7, Res.ok_bind]
      refine ⟨_, rfl, ?_⟩
      exact or_stepped hke hkl h8 hl (h9.trans h6) rfl rfl
    | some x =>
      obtain ⟨h1, gs, h2, h3⟩ := h
      rw [h1, if_neg (by simp)]
      obtain ⟨t, gs', h4, h5⟩ := h2.top hl h3
      have : PQ.top s.queue = some t.it := by rw [PQ.top, h2.heap, h4]; rfl
      rw [this]
      dsimp only
      subst h4
      have htk := h2.ok t (List.mem_cons_self ..)
      have hot : Ord t.all := ⟨htk.lex.imp lex_le, fun y hy => ho.2 y (h3.mem_iff.1 (List.mem_flatMap.2 ⟨t, List.mem_cons_self .., hy⟩))⟩
      obtain ⟨q', gs1, h6, h7, h8⟩ := orMove_spec g h2 (g.next htk.st hot) (List.pairwise_cons.1 htk.lex).2
      rw [h6, Res.ok_bind]
      refine ⟨_, rfl, ?_⟩
      refine or_stepped hke hkl h7 (List.pairwise_cons.1 hl).2 ?_ rfl rfl
      rw [total, List.flatMap_cons, Gh.all, h5] at h3
      refine List.Perm.trans ?_ h3.cons_inv
      exact h8.total
  skip := by
    rintro s k c L t ⟨hke, hkl, hl, h⟩ ho hk hb
    show ∃ r, orSkipTo o s t = .ok r ∧ _
    unfold orSkipTo
    have hL : (L.dropWhile (docLt t)).Pairwise SpLex :=
      (hl.sublist (List.sublist_append_right _ _)).sublist (List.dropWhile_sublist _)
    cases c with
    | none =>
      obtain ⟨h1, h2, h3, ss, h4, h5, h6⟩ := h
      rw [if_pos h1, h4]
      have hoss : ∀ x ∈ ss, Ord x.2.2 := fun x hx =>
        ⟨(h5 x hx).2.1.imp lex_le, fun y hy => ho.2 y (h6.mem_iff.1 (List.mem_flatMap.2 ⟨x, hx, hy⟩))⟩
      obtain ⟨q', gs', h7, h8, h9⟩ := orFill_spec g (sk := k.skips) (move := fun s => o.skipTo s t) (f := fun l => l.dropWhile (docLt t)) ss
        s.queue [] ⟨h2, h3, fun _ h => nomatch h⟩ fun x hx => ⟨g.skip (h5 x hx).1 (hoss x hx) ((h5 x hx).2.2 hk) hb,
          (h5 x hx).2.1.sublist (List.dropWhile_sublist _), (h5 x hx).2.2⟩
      rw [h7, Res.ok_bind]
      refine ⟨_, rfl, ?_⟩
      refine or_stepped hke hkl h8 hL (h9.trans ?_) rfl rfl
      rw [dropWhile_ord (L := L) ho]
      refine List.Perm.trans ?_ (h6.filter _)
      rw [List.filter_flatMap]
      show (ss.flatMap _).Perm _
      have : ∀ x ∈ ss, (x.2.2.dropWhile (docLt t)) = x.2.2.filter fun x => !docLt t x := fun x hx => dropWhile_ord (hoss x hx) t
      clear h9 h6 h5 h4 h7
      induction ss with
      | nil => exact List.Perm.refl _
      | cons a ss ih =>
        simp only [List.flatMap_cons]
        rw [this a (List.mem_cons_self ..)]
        exact (ih (fun x hx => hoss x (List.mem_cons_of_mem _ hx)) fun x hx => this x (List.mem_cons_of_mem _ hx)).append_left _
    | some x =>
      obtain ⟨h1, gs, h2, h3⟩ := h
      rw [h1, if_neg (by simp)]
      rw [hk] at h2
      have hLp : ∀ y ∈ L.dropWhile (docLt t), Proper y := fun y hy => ho.2 y (List.mem_cons_of_mem _ (List.dropWhile_subset _ hy))
      have hN : ∃ N, (∀ x ∈ N, Proper x) ∧ (total gs).Perm N ∧ (N.filter fun x => !docLt t x).Perm (L.dropWhile (docLt t)) := by
        refine ⟨x :: L, ho.2, h3, ?_⟩
        have hx : x.doc < t := hb
        rw [List.filter_cons_of_neg (by simpa [docLt] using hx), dropWhile_ord ho.tail]
      obtain ⟨q', gs', h4, h5, h6⟩ := orSkipLoop_spec g t _ hL hLp (orLeft o s.queue.heap + 1) s.queue gs h2 hN
        (Nat.lt_succ_of_le (by rw [h2.heap]; exact behind_le o t gs))
      rw [h4, Res.ok_bind]
      refine ⟨_, rfl, ?_⟩
      exact or_stepped hke hkl (by rw [hk]; exact h5) hL h6 rfl rfl
  late := by
    intro s k h hk
    rw [h] at hk; cases hk

/-- A new enumerator. -/
theorem orR_new {k : Caps} (h1 : k.early = false) (h2 : k.late = false) {ss : List (σ × Caps × List Sp)} {L : List Sp} (hL : L.Pairwise SpLex)
    (h : ∀ s ∈ ss, R s.1 s.2.1 none s.2.2 ∧ s.2.2.Pairwise SpLex ∧ (k.skips = true → s.2.1.skips = true))
    (hp : (ss.flatMap (·.2.2)).Perm L) : OrR R (OrE.new (ss.map (·.1))) k none L :=
  ⟨h1, h2, hL, rfl, PQ.inv_new _ _, rfl, ss, rfl, h, hp⟩

end Ferret.Span
