import Verif.Lemmas.PhraseDoc
import Verif.Lemmas.PriorityQueue

/-! The sloppy phrase frequency. -/

namespace Ferret.Phrase

open Ferret.Post (Posting)
open Ferret.Spec (StrictWeak)

variable {ε : Type} {o : TdeOps ε} {Ok : ε → Prop} {view : ε → Tde}

/-! ### The queue of indices -/

theorem ppLt_asymm (a b : PhPos ε) (h : ppLt a b = true) : ppLt b a = false := by
  unfold ppLt at *
  split at h <;> split <;> simp only [decide_eq_true_eq, decide_eq_false_iff_not] at * <;> omega

theorem ppLt_negTrans (a b c : PhPos ε) (h1 : ppLt a b = false) (h2 : ppLt b c = false) : ppLt a c = false := by
  unfold ppLt at *
  split at h1 <;> split at h2 <;> split <;> simp only [decide_eq_false_iff_not] at * <;> omega

theorem idxLt_strictWeak (ps : List (PhPos ε)) : StrictWeak (idxLt ps) where
  asymm a b h := by
    unfold idxLt at *
    cases ha : ps[a]? with
    | none => rw [ha] at h; cases h
    | some x =>
      cases hb : ps[b]? with
      | none => rfl
      | some y => rw [ha, hb] at h; exact ppLt_asymm _ _ h
  negTrans a b c h1 h2 := by
    unfold idxLt at *
    cases ha : ps[a]? with
    | none => rfl
    | some x =>
      rw [ha] at h1
      cases hb : ps[b]? with
      | none => rw [hb] at h1; cases h1
      | some y =>
        rw [hb] at h1 h2
        cases hc : ps[c]? with
        | none => rw [hc] at h2; cases h2
        | some z => rw [hc] at h2; exact ppLt_negTrans _ _ _ h1 h2

theorem idxLt_set (ps : List (PhPos ε)) (i : Nat) (p : PhPos ε) {a b : Nat} (ha : a ≠ i) (hb : b ≠ i) : idxLt (ps.set i p) a b = idxLt ps a b := by
  unfold idxLt
  rw [List.getElem?_set_ne (Ne.symm ha), List.getElem?_set_ne (Ne.symm hb)]

theorem at?_mem {α : Type} {h : List α} {k : Nat} {a : α} (hk : PQ.at? h k = some a) : a ∈ h := by
  unfold PQ.at? at hk
  split at hk
  · cases hk
  · exact List.mem_of_getElem? hk

theorem inv_congr {lt lt' : Nat → Nat → Bool} {q : PQ.PQ Nat} (h : PQ.Inv lt q) (hlt : ∀ a ∈ q.heap, ∀ b ∈ q.heap, lt a b = lt' a b) : PQ.Inv lt' q :=
  ⟨fun k a b hk ha hb => by rw [← hlt a (at?_mem ha) b (at?_mem hb)]; exact h.heap k a b hk ha hb, h.mem⟩

theorem idxLt_pos {ps : List (PhPos ε)} {i j : Nat} {a b : PhPos ε} (ha : ps[i]? = some a) (hb : ps[j]? = some b) (h : idxLt ps j i = false) : a.position ≤ b.position := by
  unfold idxLt at h
  rw [ha, hb] at h
  simp only [ppLt] at h
  split at h <;> simp only [decide_eq_false_iff_not] at h <;> omega

/-! ### Moving one phrase position -/

/-- The phrase position of `E` at `i` does not stand on the word of another one (with another offset) there. -/
def FreeOf (E : List (Ent ε)) (cnt : Nat) (off x : Int) : Prop :=
  ∀ (j : Nat) q, j < cnt → E[j]? = some q → q.pp.offset ≠ off → q.pp.position + q.pp.offset ≠ x + off

/-- On a position, with ascending ones to come. -/
def PosOK (o : TdeOps ε) (Ok : ε → Prop) (view : ε → Tde) (e : Ent ε) : Prop := Pos o Ok view e (todo view e) ∧ (rem view e).Pairwise (· ≤ ·)

theorem nextPosition_spec (hl : Lawful o Ok view) {e : Ent ε} (h : PosOK o Ok view e) :
    ∃ e' b, ppNextPosition o e.pp = .ok (b, e'.pp) ∧ Same o Ok view e e' ∧ (b = true → PosOK o Ok view e' ∧ rem view e = e.pp.position :: rem view e') ∧ (b = false → todo view e = []) := by
  cases ht : todo view e with
  | nil =>
    have h1 := h.1
    rw [ht] at h1
    obtain ⟨e', k1, k2⟩ := nextPosition_nil h1
    exact ⟨e', false, k1, k2, (fun h => nomatch h), fun _ => rfl⟩
  | cons x l =>
    have h1 := h.1
    rw [ht] at h1
    obtain ⟨e', k1, k2, k3, k4⟩ := nextPosition_cons hl h1
    have hr : rem view e = e.pp.position :: rem view e' := by
      rw [rem, ht, rem, k3.todo, k2]
    refine ⟨e', true, k1, k4, fun _ => ⟨⟨by rw [k3.todo]; exact k3, ?_⟩, hr⟩, (fun h => nomatch h)⟩
    have := h.2
    rw [hr] at this
    exact (List.pairwise_cons.1 this).2

theorem same_offset {e e' : Ent ε} (h : Same o Ok view e e') : e'.pp.offset = e.pp.offset := h.2.1

theorem checkRepeats_spec (hl : Lawful o Ok view) (cnt i : Nat) : ∀ (fuel : Nat) (E : List (Ent ε)) (e : Ent ε), cnt ≤ E.length → E[i]? = some e → (todo view e).length < fuel → PosOK o Ok view e →
    ∃ b e', checkRepeats o cnt i fuel (E.map (·.pp)) = .ok (b, (E.set i e').map (·.pp)) ∧ Same o Ok view e e' ∧
      (b = true → PosOK o Ok view e' ∧ (rem view e').IsSuffix (rem view e) ∧ FreeOf E cnt e.pp.offset e'.pp.position) := by
  intro fuel
  induction fuel with
  | zero => intro E e _ _ h; omega
  | succ n ih =>
    intro E e hc hi hf hp
    have hset : E.set i e = E := by
      apply List.ext_getElem?
      intro j
      by_cases hij : i = j
      · subst hij; rw [List.getElem?_set_self (List.getElem?_eq_some_iff.1 hi).1, hi]
      · rw [List.getElem?_set_ne hij]
    rw [checkRepeats, if_neg (by simp; omega), List.getElem?_map, hi]
    simp only [Option.map_some, Res.ofOption, Res.ok_bind]
    by_cases hany : (((E.map (·.pp)).take cnt).any fun q => decide (q.offset ≠ e.pp.offset ∧ q.position + q.offset = e.pp.position + e.pp.offset)) = true
    · rw [if_pos hany]
      obtain ⟨e1, b, k1, k2, k3, k4⟩ := nextPosition_spec hl hp
      rw [k1, Res.ok_bind]
      cases b with
      | false => exact ⟨false, e1, by rw [← map_pp_set]; rfl, k2, (fun h => nomatch h)⟩
      | true =>
        obtain ⟨p1, p2⟩ := k3 rfl
        have hi1 : (E.set i e1)[i]? = some e1 := List.getElem?_set_self (List.getElem?_eq_some_iff.1 hi).1
        have hlen : (todo view e1).length < n := by
          have := congrArg List.length p2
          simp only [rem, List.length_cons] at this
          omega
        obtain ⟨b, e2, m1, m2, m3⟩ := ih (E.set i e1) e1 (by rw [List.length_set]; exact hc) hi1 hlen p1
        refine ⟨b, e2, ?_, k2.trans m2, fun hb => ?_⟩
        · simp only [if_true]
          rw [map_pp_set, m1, List.set_set]
        · obtain ⟨q1, q2, q3⟩ := m3 hb
          refine ⟨q1, q2.trans (by rw [p2]; exact List.suffix_cons _ _), fun j q hj hq hoff => ?_⟩
          have hji : i ≠ j := fun h => by subst h; rw [hi] at hq; cases hq; exact hoff rfl
          have := q3 j q hj (by rw [List.getElem?_set_ne hji]; exact hq) (by rw [same_offset k2]; exact hoff)
          rw [same_offset k2] at this
          exact this
    · rw [if_neg hany]
      refine ⟨true, e, by rw [hset], ⟨rfl, rfl, fun st p l h => ⟨st, l, h, rfl⟩⟩, fun _ => ⟨hp, List.suffix_rfl, fun j q hj hq hoff heq => hany ?_⟩⟩
      rw [List.any_eq_true]
      refine ⟨q.pp, ?_, by simp only [decide_eq_true_eq]; exact ⟨hoff, heq⟩⟩
      rw [← List.map_take]
      refine List.mem_map_of_mem ?_
      exact List.mem_of_getElem? (i := j) (by rw [List.getElem?_take, if_pos hj]; exact hq)

theorem set_self {α : Type} {E : List α} {i : Nat} {e : α} (hi : E[i]? = some e) : E.set i e = E := by
  apply List.ext_getElem?
  intro j
  by_cases hij : i = j
  · subst hij; rw [List.getElem?_set_self (List.getElem?_eq_some_iff.1 hi).1, hi]
  · rw [List.getElem?_set_ne hij]

theorem Same.rfl' (e : Ent ε) : Same o Ok view e e := ⟨rfl, rfl, fun st _ l h => ⟨st, l, h, rfl⟩⟩

theorem checked_spec (hl : Lawful o Ok view) (check : Bool) {cnt i : Nat} {E : List (Ent ε)} {e : Ent ε} (hc : cnt ≤ E.length) (hi : E[i]? = some e) (hp : PosOK o Ok view e) :
    ∃ b e', checked o check cnt i (E.map (·.pp)) = .ok (b, (E.set i e').map (·.pp)) ∧ Same o Ok view e e' ∧ (check = false → b = true ∧ e' = e) ∧
      (b = true → PosOK o Ok view e' ∧ (rem view e').IsSuffix (rem view e) ∧ (check = true → FreeOf E cnt e.pp.offset e'.pp.position)) := by
  cases check with
  | false =>
    refine ⟨true, e, by rw [checked, set_self hi]; rfl, Same.rfl' e, fun _ => ⟨rfl, rfl⟩, fun _ => ⟨hp, List.suffix_rfl, (fun h => nomatch h)⟩⟩
  | true =>
    have hcount : e.pp.count.toNat = (todo view e).length := by rw [hp.1.count]; simp
    obtain ⟨b, e', m1, m2, m3⟩ := checkRepeats_spec hl cnt i (e.pp.count.toNat + 1) E e hc hi (by omega) hp
    refine ⟨b, e', ?_, m2, (fun h => nomatch h), fun hb => ⟨(m3 hb).1, (m3 hb).2.1, fun _ => (m3 hb).2.2⟩⟩
    rw [checked, if_pos rfl, List.getElem?_map, hi]
    exact m1

/-- The word at `x + off` is not that of a phrase position with another offset two or more places from `i`. -/
def Dist (E : List (Ent ε)) (i : Nat) (off x : Int) : Prop :=
  ∀ (j : Nat) q, (j + 2 ≤ i ∨ i + 2 ≤ j) → E[j]? = some q → q.pp.offset ≠ off → q.pp.position + q.pp.offset ≠ x + off

theorem dist_set {E : List (Ent ε)} {i : Nat} {a : Ent ε} {off x : Int} : Dist (E.set i a) i off x ↔ Dist E i off x := by
  constructor
  · intro h j q hj hq
    exact h j q hj (by rw [List.getElem?_set_ne (by omega)]; exact hq)
  · intro h j q hj hq
    rw [List.getElem?_set_ne (by omega)] at hq
    exact h j q hj hq

theorem FreeOf.dist {E : List (Ent ε)} {i : Nat} {off x : Int} (h : FreeOf E E.length off x) : Dist E i off x :=
  fun j q _ hq => h j q (List.getElem?_eq_some_iff.1 hq).1 hq

theorem sphAdvance_spec (hl : Lawful o Ok view) (check : Bool) (nextPos : Int) (i : Nat) : ∀ (fuel : Nat) (start : Int) (E : List (Ent ε)) (e : Ent ε), E[i]? = some e →
    (todo view e).length < fuel → PosOK o Ok view e → (check = true → Dist E i e.pp.offset e.pp.position) →
    ∃ b st e', sphAdvance o check nextPos i fuel start (E.map (·.pp)) = .ok (b, st, (E.set i e').map (·.pp)) ∧ Same o Ok view e e' ∧
      (nextPos < e.pp.position → b = false ∧ st = start ∧ e' = e) ∧
      (e.pp.position ≤ nextPos → st ∈ rem view e ∧ e.pp.position ≤ st ∧ st ≤ nextPos ∧ (check = true → Dist E i e.pp.offset st) ∧
        (b = false → (todo view e').length < (todo view e).length) ∧
        (check = false → ∀ q ∈ rem view e, (q ≤ nextPos → q ≤ st) ∧ (nextPos < q → b = false ∧ q ∈ rem view e'))) ∧
      (b = false → PosOK o Ok view e' ∧ (rem view e').IsSuffix (rem view e) ∧ nextPos < e'.pp.position ∧ (check = true → Dist E i e.pp.offset e'.pp.position)) := by
  intro fuel
  induction fuel with
  | zero => intro _ E e _ h; omega
  | succ n ih =>
    intro start E e hi hf hp hd
    rw [sphAdvance, List.getElem?_map, hi]
    simp only [Option.map_some, Res.ofOption, Res.ok_bind]
    by_cases hle : e.pp.position ≤ nextPos
    · rw [if_pos hle]
      have hasc := hp.2
      obtain ⟨e1, b, k1, k2, k3, k4⟩ := nextPosition_spec hl hp
      rw [k1, Res.ok_bind]
      have hself : e.pp.position ∈ rem view e := List.mem_cons_self ..
      cases b with
      | false =>
        have ht := k4 rfl
        refine ⟨true, e.pp.position, e1, by rw [if_neg (by simp), map_pp_set], k2, fun h => by omega, fun _ => ⟨hself, by omega, hle, hd, (fun h => nomatch h), fun _ q hq => ?_⟩, (fun h => nomatch h)⟩
        rw [rem, ht, List.mem_singleton] at hq
        exact ⟨fun _ => by omega, fun _ => by omega⟩
      | true =>
        obtain ⟨p1, p2⟩ := k3 rfl
        have hlt := (List.getElem?_eq_some_iff.1 hi).1
        have hi1 : (E.set i e1)[i]? = some e1 := List.getElem?_set_self hlt
        obtain ⟨b, e2, m1, m2, m3, m4⟩ := checked_spec hl check (cnt := (E.map (·.pp)).length) (by rw [List.length_map, List.length_set]; exact Nat.le_refl _) hi1 p1
        simp only [if_true]
        rw [map_pp_set, m1, Res.ok_bind, List.set_set]
        cases b with
        | false =>
          refine ⟨true, e.pp.position, e2, rfl, k2.trans m2, fun h => by omega, fun _ => ⟨hself, by omega, hle, hd, (fun h => nomatch h), fun hc => ?_⟩, (fun h => nomatch h)⟩
          exact nomatch (m3 hc).1
        | true =>
          obtain ⟨q1, q2, q3⟩ := m4 rfl
          have hoff : e2.pp.offset = e.pp.offset := (same_offset m2).trans (same_offset k2)
          have hi2 : (E.set i e2)[i]? = some e2 := List.getElem?_set_self hlt
          have hsuf : (rem view e2).IsSuffix (rem view e) := q2.trans (by rw [p2]; exact List.suffix_cons _ _)
          have hlen2 : (todo view e2).length < (todo view e).length := by
            have a1 := q2.length_le
            have a2 := congrArg List.length p2
            simp only [rem, List.length_cons] at a1 a2
            omega
          have hd2 : check = true → Dist E i e.pp.offset e2.pp.position := fun hc => by
            have := q3 hc
            rw [List.length_map, show E.length = (E.set i e1).length by simp, same_offset k2] at this
            exact dist_set.1 this.dist
          obtain ⟨b, st, e', r1, r2, r3, r4, r5⟩ := ih e.pp.position (E.set i e2) e2 hi2 (by omega) q1 (fun hc => by rw [hoff]; exact dist_set.2 (hd2 hc))
          rw [hoff] at r4 r5
          simp only [dist_set] at r4 r5
          refine ⟨b, st, e', ?_, (k2.trans m2).trans r2, fun h => by omega, fun _ => ?_, fun hb => ?_⟩
          · simp only [if_true]
            rw [r1, List.set_set]
          · have hposle : ∀ q ∈ rem view e, e.pp.position ≤ q := by
              intro q hq
              rw [rem] at hq hasc
              rcases List.mem_cons.1 hq with h | h
              · omega
              · exact (List.pairwise_cons.1 hasc).1 q h
            have hce : check = false → rem view e = e.pp.position :: rem view e2 := fun hc => by rw [p2, (m3 hc).2]
            by_cases h2 : e2.pp.position ≤ nextPos
            · obtain ⟨s1, s2, s3, s4, s5, s6⟩ := r4 h2
              refine ⟨hsuf.mem s1, hposle _ (hsuf.mem s1), s3, s4, fun hb => by have := s5 hb; omega, fun hc q hq => ?_⟩
              rw [hce hc] at hq
              rcases List.mem_cons.1 hq with h | h
              · have := hposle _ (hsuf.mem s1)
                exact ⟨fun _ => by omega, fun _ => by omega⟩
              · exact s6 hc q h
            · obtain ⟨s1, s2, s3⟩ := r3 (by omega)
              subst s2 s3
              refine ⟨hself, by omega, hle, hd, fun _ => hlen2, fun hc q hq => ?_⟩
              rw [hce hc] at hq
              rcases List.mem_cons.1 hq with h | h
              · exact ⟨fun _ => by omega, fun _ => by omega⟩
              · have : e'.pp.position ≤ q := by
                  have hasc2 := q1.2
                  rw [rem] at h hasc2
                  rcases List.mem_cons.1 h with h | h
                  · omega
                  · exact (List.pairwise_cons.1 hasc2).1 q h
                exact ⟨fun _ => by omega, fun _ => ⟨s1, h⟩⟩
          · obtain ⟨s1, s2, s3, s4⟩ := r5 hb
            exact ⟨s1, s2.trans hsuf, s3, s4⟩
    · rw [if_neg hle]
      exact ⟨false, start, e, by rw [set_self hi], .refl _, fun _ => ⟨rfl, rfl, rfl⟩, fun h => absurd h hle, fun _ => ⟨hp, List.suffix_rfl, by omega, hd⟩⟩

/-! ### The main loop -/

/-- No two phrase positions two or more places apart, with different offsets, stand on the same word. -/
def Apart (E : List (Ent ε)) : Prop := ∀ (i : Nat) e, E[i]? = some e → Dist E i e.pp.offset e.pp.position

theorem apart_set {E : List (Ent ε)} {i : Nat} {e e' : Ent ε} (hi : E[i]? = some e) (hoff : e'.pp.offset = e.pp.offset) (h : Apart E) (hd : Dist E i e.pp.offset e'.pp.position) : Apart (E.set i e') := by
  have hlt := (List.getElem?_eq_some_iff.1 hi).1
  intro j a ha k b hk hb hne
  by_cases hij : i = j
  · subst hij
    rw [List.getElem?_set_self hlt] at ha
    cases ha
    rw [List.getElem?_set_ne (by omega)] at hb
    rw [hoff] at hne ⊢
    exact hd k b hk hb hne
  · rw [List.getElem?_set_ne hij] at ha
    by_cases hik : i = k
    · subst hik
      rw [List.getElem?_set_self hlt] at hb
      cases hb
      rw [hoff] at hne ⊢
      exact fun h => hd j a (by omega) ha (Ne.symm hne) h.symm
    · rw [List.getElem?_set_ne hik] at hb
      exact h j a ha k b hk hb hne

/-- Places for all phrase positions in a window of width `k`. -/
structure Win (E : List (Ent ε)) (R : Ent ε → List Int) (lo k : Int) (c : Nat → Int) : Prop where
  mem : ∀ (i : Nat) e, E[i]? = some e → c i ∈ R e
  ge : ∀ (i : Nat) e, E[i]? = some e → lo ≤ c i
  le : ∀ (i : Nat) e, E[i]? = some e → c i ≤ lo + k

/-- … on different words. -/
def Words (E : List (Ent ε)) (c : Nat → Int) : Prop :=
  ∀ (i j : Nat) e f, i + 2 ≤ j → E[i]? = some e → E[j]? = some f → e.pp.offset ≠ f.pp.offset → c i + e.pp.offset ≠ c j + f.pp.offset

theorem sphLoop_spec (hl : Lawful o Ok view) (check : Bool) (slop : Int) : ∀ (fuel : Nat) (E : List (Ent ε)) (q : PQ.PQ Nat) (last : Int) (freq : List Int), toCome view E < fuel →
    2 ≤ E.length → PosAll o Ok view E → PQ.Inv (idxLt (E.map (·.pp))) q → q.heap.Perm (List.range E.length) → (check = true → Apart E) →
    (∀ e ∈ E, e.pp.position ≤ last) → (last = 0 ∨ ∃ e ∈ E, e.pp.position = last) → 0 ≤ last →
    ∃ ks E', sphLoop o check slop fuel (E.map (·.pp)) q last freq = .ok (freq ++ ks, E'.map (·.pp)) ∧ SameAll o Ok view E E' ∧
      (∀ k ∈ ks, 0 ≤ k ∧ k ≤ slop ∧ ∃ lo c, 0 ≤ lo + k ∧ Win E (rem view) lo k c ∧ (check = true → Words E c)) ∧
      (check = false → ∀ lo w c, 0 ≤ lo + w → w ≤ slop → Win E (rem view) lo w c → ∃ k ∈ ks, k ≤ w) := by
  intro fuel
  induction fuel with
  | zero => intro E _ _ _ h; omega
  | succ n ih =>
    intro E q last freq hf hn hpa hq hperm hap hlast hlast2 hlast0
    have hne : q.heap ≠ [] := by
      intro h
      have := hperm.length_eq
      rw [h, List.length_range, List.length_nil] at this
      omega
    obtain ⟨i, q1, a1, a2, _, a3, _, a4⟩ := PQ.pop_spec (idxLt_strictWeak (E.map (·.pp))) q hq hne
    have hpr := a3.trans hperm
    have hi : i < E.length := List.mem_range.1 (hpr.mem_iff.1 (List.mem_cons_self ..))
    have hnd : (i :: q1.heap).Nodup := hpr.nodup_iff.2 List.nodup_range
    obtain ⟨hin, hnd1⟩ := List.nodup_cons.1 hnd
    have hq1 : q1.heap ≠ [] := by
      intro h
      have := hpr.length_eq
      rw [h, List.length_range] at this
      simp at this
      omega
    obtain ⟨j, hj⟩ : ∃ j, q1.heap.head? = some j := by
      cases hh : q1.heap with
      | nil => exact absurd hh hq1
      | cons j l => exact ⟨j, rfl⟩
    have hjm : j ∈ q1.heap := List.mem_of_mem_head? hj
    have hjl : j < E.length := List.mem_range.1 (hpr.mem_iff.1 (List.mem_cons_of_mem _ hjm))
    have hge : E[i]? = some E[i] := List.getElem?_eq_getElem hi
    have hgj : E[j]? = some E[j] := List.getElem?_eq_getElem hjl
    generalize hei : E[i] = e at hge
    generalize hej : E[j] = f at hgj
    have hpi : (E.map (·.pp))[i]? = some e.pp := by rw [List.getElem?_map, hge]; rfl
    have hpj : (E.map (·.pp))[j]? = some f.pp := by rw [List.getElem?_map, hgj]; rfl
    have hpe := hpa e (List.mem_of_getElem? hge)
    have hcount : e.pp.count.toNat = (todo view e).length := by rw [hpe.1.count]; simp
    -- the popped one is first, `f` is first of the others
    have hmin : ∀ (k : Nat) a, E[k]? = some a → e.pp.position ≤ a.pp.position := by
      intro k a ha
      have hk : k ∈ q.heap := hperm.mem_iff.2 (List.mem_range.2 (List.getElem?_eq_some_iff.1 ha).1)
      exact idxLt_pos hpi (by rw [List.getElem?_map, ha]; rfl) (a4 k hk)
    have hmin2 : ∀ (k : Nat) a, k ≠ i → E[k]? = some a → f.pp.position ≤ a.pp.position := by
      intro k a hki ha
      have hk : k ∈ q1.heap := by
        have := hpr.mem_iff.2 (List.mem_range.2 (List.getElem?_eq_some_iff.1 ha).1)
        rcases List.mem_cons.1 this with h | h
        · exact absurd h hki
        · exact h
      exact idxLt_pos hpj (by rw [List.getElem?_map, ha]; rfl) (PQ.heap_top_min (idxLt_strictWeak _) a2.heap j hj k hk)
    have hef := hmin j f hgj
    obtain ⟨b, st, e', r1, r2, _, r4, r5⟩ := sphAdvance_spec hl check f.pp.position i (e.pp.count.toNat + 2) e.pp.position E e hge (by omega) hpe (fun hc => hap hc i e hge)
    obtain ⟨s1, s2, s3, s4, s5, s6⟩ := r4 hef
    have hi' : (E.set i e')[i]? = some e' := List.getElem?_set_self hi
    have hinv1 : PQ.Inv (idxLt ((E.set i e').map (·.pp))) q1 := by
      refine inv_congr a2 fun x hx y hy => ?_
      have hx1 : x ≠ i := fun h => hin (h ▸ hx)
      have hy1 : y ≠ i := fun h => hin (h ▸ hy)
      rw [← map_pp_set, idxLt_set _ _ _ hx1 hy1]
    obtain ⟨q2, u1, u2, _, u4⟩ := PQ.push_spec (idxLt_strictWeak ((E.set i e').map (·.pp))) q1 i hinv1
    have hstep : sphLoop o check slop (n + 1) (E.map (·.pp)) q last freq =
        if b then .ok (if last - st ≤ slop then freq ++ [last - st] else freq, (E.set i e').map (·.pp))
        else sphLoop o check slop n ((E.set i e').map (·.pp)) q2 (if e'.pp.position > last then e'.pp.position else last) (if last - st ≤ slop then freq ++ [last - st] else freq) := by
      rw [sphLoop, a1]
      simp only [Res.ok_bind, Res.ofOption, hpi]
      rw [show PQ.top q1 = some j from hj]
      simp only [Res.ok_bind, hpj, r1]
      rw [List.getElem?_map, hi']
      simp only [Option.map_some, Res.ok_bind, u1]
    have hlastf : f.pp.position ≤ last := hlast f (List.mem_of_getElem? hgj)
    -- the window scored now
    have hnow : last - st ≤ slop → 0 ≤ last - st ∧ last - st ≤ slop ∧ ∃ lo c, 0 ≤ lo + (last - st) ∧ Win E (rem view) lo (last - st) c ∧ (check = true → Words E c) := by
      intro hs
      refine ⟨by omega, hs, st, fun k => if k = i then st else match E[k]? with | some a => a.pp.position | none => 0, by omega, ⟨?_, ?_, ?_⟩, ?_⟩
      · intro k a ha
        by_cases hk : k = i
        · subst hk; rw [hge] at ha; cases ha; simp only [if_true]; exact s1
        · simp only [if_neg hk, ha]; exact List.mem_cons_self ..
      · intro k a ha
        by_cases hk : k = i
        · simp only [if_pos hk]; omega
        · simp only [if_neg hk, ha]; have := hmin2 k a hk ha; omega
      · intro k a ha
        by_cases hk : k = i
        · simp only [if_pos hk]; omega
        · simp only [if_neg hk, ha]; have := hlast a (List.mem_of_getElem? ha); omega
      · intro hc x y ex ey hxy hx hy hoff
        by_cases hxi : x = i
        · subst hxi
          rw [hge] at hx; cases hx
          simp only [if_true, if_neg (show ¬ y = x by omega), hy]
          exact fun h => s4 hc y ey (.inr hxy) hy (Ne.symm hoff) h.symm
        · by_cases hyi : y = i
          · subst hyi
            rw [hge] at hy; cases hy
            simp only [if_true, if_neg hxi, hx]
            exact s4 hc x ex (.inl hxy) hx hoff
          · simp only [if_neg hxi, if_neg hyi, hx, hy]
            exact hap hc y ey hy x ex (.inl hxy) hx hoff
    -- a window either is at least as wide as the one scored, or is still to come
    have hcomp : check = false → ∀ lo w c, 0 ≤ lo + w → w ≤ slop → Win E (rem view) lo w c →
        (last - st ≤ w) ∨ (b = false ∧ c i ∈ rem view e') := by
      intro hc lo w c h0 hw hwin
      have hl1 : last ≤ lo + w := by
        rcases hlast2 with h | ⟨a, ha, h⟩
        · omega
        · obtain ⟨k, hk⟩ := List.getElem?_of_mem ha
          have h1 := hwin.mem k a hk
          have h2 := hwin.le k a hk
          have h3 := (hpa a ha).2
          rw [rem] at h1 h3
          rcases List.mem_cons.1 h1 with h4 | h4
          · omega
          · have := (List.pairwise_cons.1 h3).1 _ h4; omega
      have hci := hwin.mem i e hge
      have hcg := hwin.ge i e hge
      by_cases hcase : c i ≤ f.pp.position
      · have := (s6 hc (c i) hci).1 hcase
        left; omega
      · right; exact (s6 hc (c i) hci).2 (by omega)
    rw [hstep]
    have hsame : SameAll o Ok view E (E.set i e') := by
      refine ⟨by rw [List.length_set], fun k x y hx hy => ?_⟩
      by_cases hk : i = k
      · subst hk
        rw [hge] at hx; rw [hi'] at hy; cases hx; cases hy; exact r2
      · rw [List.getElem?_set_ne hk, hx] at hy; cases hy; exact .refl _
    cases b with
    | true =>
      simp only [if_true]
      by_cases hs : last - st ≤ slop
      · rw [if_pos hs]
        refine ⟨[last - st], _, rfl, hsame, fun k hk => by rw [List.mem_singleton] at hk; subst hk; exact hnow hs, fun hc lo w c h0 hw hwin => ?_⟩
        rcases hcomp hc lo w c h0 hw hwin with h | h
        · exact ⟨_, List.mem_singleton_self _, h⟩
        · exact nomatch h.1
      · rw [if_neg hs]
        refine ⟨[], _, by rw [List.append_nil], hsame, (fun _ h => nomatch h), fun hc lo w c h0 hw hwin => ?_⟩
        rcases hcomp hc lo w c h0 hw hwin with h | h
        · omega
        · exact nomatch h.1
    | false =>
      obtain ⟨t1, t2, t3, t4⟩ := r5 rfl
      have hoff := same_offset r2
      have hsum := sum_set (fun e => (todo view e).length) (e' := e') hge
      have hlen := s5 rfl
      obtain ⟨ks, E', v1, v2, v3, v4⟩ := ih (E.set i e') q2 (if e'.pp.position > last then e'.pp.position else last) (if last - st ≤ slop then freq ++ [last - st] else freq)
        (by unfold toCome at *; omega) (by rw [List.length_set]; exact hn) (posAll_set hpa t1.1 t1.2) u2 (by rw [List.length_set]; exact u4.trans hpr)
        (fun hc => apart_set hge hoff (hap hc) (t4 hc))
        (by
          intro a ha
          rcases List.mem_or_eq_of_mem_set ha with h | rfl
          · have := hlast a h; split <;> omega
          · split <;> omega)
        (by
          split
          · right; exact ⟨e', List.mem_of_getElem? hi', rfl⟩
          · rename_i hgt
            rcases hlast2 with h | ⟨a, ha, h⟩
            · exact .inl h
            · right
              obtain ⟨k, hk⟩ := List.getElem?_of_mem ha
              by_cases hki : i = k
              · subst hki
                rw [hge] at hk; cases hk
                -- `e` was first and is the last: so is `e'`, which is past it
                exact absurd (by omega) hgt
              · exact ⟨a, List.mem_of_getElem? (i := k) (by rw [List.getElem?_set_ne hki]; exact hk), h⟩)
        (by split <;> omega)
      simp only [Bool.false_eq_true, if_false]
      -- windows of the new state are windows of the old one
      have hback : ∀ lo k c, Win (E.set i e') (rem view) lo k c → Win E (rem view) lo k c := by
        intro lo k c hwin
        refine ⟨fun x a ha => ?_, fun x a ha => ?_, fun x a ha => ?_⟩ <;>
        · by_cases hx : i = x
          · subst hx
            rw [hge] at ha; cases ha
            first
            | exact t2.mem (hwin.mem i e' hi')
            | exact hwin.ge i e' hi'
            | exact hwin.le i e' hi'
          · first
            | exact hwin.mem x a (by rw [List.getElem?_set_ne hx]; exact ha)
            | exact hwin.ge x a (by rw [List.getElem?_set_ne hx]; exact ha)
            | exact hwin.le x a (by rw [List.getElem?_set_ne hx]; exact ha)
      have hwords : ∀ c, Words (E.set i e') c → Words E c := by
        intro c hw x y ex ey hxy hx hy hne
        by_cases hxi : i = x
        · subst hxi
          rw [hge] at hx; cases hx
          have := hw i y e' ey hxy hi' (by rw [List.getElem?_set_ne (by omega)]; exact hy) (by rw [hoff]; exact hne)
          rwa [hoff] at this
        · by_cases hyi : i = y
          · subst hyi
            rw [hge] at hy; cases hy
            have := hw x i ex e' hxy (by rw [List.getElem?_set_ne hxi]; exact hx) hi' (by rw [hoff]; exact hne)
            rwa [hoff] at this
          · exact hw x y ex ey hxy (by rw [List.getElem?_set_ne hxi]; exact hx) (by rw [List.getElem?_set_ne hyi]; exact hy) hne
      have hsound : ∀ k ∈ ks, 0 ≤ k ∧ k ≤ slop ∧ ∃ lo c, 0 ≤ lo + k ∧ Win E (rem view) lo k c ∧ (check = true → Words E c) := by
        intro k hk
        obtain ⟨w1, w2, lo, c, w3, w4, w5⟩ := v3 k hk
        exact ⟨w1, w2, lo, c, w3, hback _ _ _ w4, fun hc => hwords c (w5 hc)⟩
      have hfwd : ∀ lo w c, Win E (rem view) lo w c → c i ∈ rem view e' → Win (E.set i e') (rem view) lo w c := by
        intro lo w c hwin hci
        refine ⟨fun x a ha => ?_, fun x a ha => ?_, fun x a ha => ?_⟩ <;>
        · by_cases hx : i = x
          · subst hx
            rw [hi'] at ha; cases ha
            first
            | exact hci
            | exact hwin.ge i e hge
            | exact hwin.le i e hge
          · rw [List.getElem?_set_ne hx] at ha
            first
            | exact hwin.mem x a ha
            | exact hwin.ge x a ha
            | exact hwin.le x a ha
      by_cases hs : last - st ≤ slop
      · rw [if_pos hs] at v1 ⊢
        refine ⟨(last - st) :: ks, E', by rw [v1]; simp, hsame.trans v2, fun k hk => ?_, fun hc lo w c h0 hw hwin => ?_⟩
        · rcases List.mem_cons.1 hk with rfl | hk
          · exact hnow hs
          · exact hsound k hk
        · rcases hcomp hc lo w c h0 hw hwin with h | h
          · exact ⟨_, List.mem_cons_self .., h⟩
          · obtain ⟨k, hk, hkw⟩ := v4 hc lo w c h0 hw (hfwd lo w c hwin h.2)
            exact ⟨k, List.mem_cons_of_mem _ hk, hkw⟩
      · rw [if_neg hs] at v1 ⊢
        refine ⟨ks, E', v1, hsame.trans v2, hsound, fun hc lo w c h0 hw hwin => ?_⟩
        rcases hcomp hc lo w c h0 hw hwin with h | h
        · omega
        · exact v4 hc lo w c h0 hw (hfwd lo w c hwin h.2)

/-! ### The first positions -/

/-- What the first loop makes of a phrase position at document `d`. -/
structure Began (o : TdeOps ε) (Ok : ε → Prop) (view : ε → Tde) (check : Bool) (d : Int) (e e' : Ent ε) : Prop where
  same : Same o Ok view e e'
  pos : PosOK o Ok view e'
  mem : ∀ x ∈ rem view e', x + e.pp.offset ∈ occAt e.full d
  all : check = false → ∀ y ∈ occAt e.full d, y - e.pp.offset ∈ rem view e'

theorem firstPos (hl : Lawful o Ok view) {d : Int} {e : Ent ε} (hd : DocsOK e.full) (hf : Fresh Ok view d e) :
    ∃ e', ppFirstPosition o e.pp = .ok (true, e'.pp) ∧ Same o Ok view e e' ∧ PosOK o Ok view e' ∧ rem view e' = (occAt e.full d).map (· - e.pp.offset) := by
  obtain ⟨E', k1, k2, k3, k4⟩ := firstPositions_spec hl d [e] (by intro a ha; rw [List.mem_singleton] at ha; subst ha; exact hd) (by intro a ha; rw [List.mem_singleton] at ha; subst ha; exact hf)
  have hlen : E'.length = 1 := k2.1
  match E', hlen with
  | [e'], _ =>
    obtain ⟨st, p, ha, hpd⟩ := hf
    have hmem : p ∈ e.full := by obtain ⟨pre, h⟩ := ha.full; rw [h]; simp
    have hfr := hd.freq p hmem
    cases hx : p.occ with
    | nil => rw [hx, List.length_nil] at hfr; omega
    | cons x l =>
      obtain ⟨e1, m1, m2, m3, m4⟩ := firstPosition_spec hl ha hfr.1 hx
      have hrem : rem view e1 = (occAt e.full d).map (· - e.pp.offset) := by
        rw [rem, m2, m3.todo, ← hpd, occAt_mem hd.asc hmem, hx]; rfl
      refine ⟨e1, m1, m4, ⟨by rw [m3.todo]; exact m3, ?_⟩, hrem⟩
      rw [hrem, ← hpd, occAt_mem hd.asc hmem, List.pairwise_map]
      exact (hd.occ p hmem).imp (fun h => by omega)

theorem set_append_mid {α : Type} (A : List α) (x y : α) (B : List α) : (A ++ x :: B).set A.length y = A ++ y :: B := by
  rw [List.set_append_right _ _ (Nat.le_refl _)]
  simp

theorem sphInit_spec (hl : Lawful o Ok view) (check : Bool) (d : Int) : ∀ (B A : List (Ent ε)) (q : PQ.PQ Nat) (last : Int),
    (∀ e ∈ B, DocsOK e.full) → (∀ e ∈ B, Fresh Ok view d e) → PosAll o Ok view A → PQ.Inv (idxLt ((A ++ B).map (·.pp))) q → q.heap.Perm (List.range A.length) →
    (check = true → Apart A) → (∀ e ∈ A, e.pp.position ≤ last) → (last = 0 ∨ ∃ e ∈ A, e.pp.position = last) → 0 ≤ last →
    ∃ B' r, sphInit o check B.length A.length ((A ++ B).map (·.pp)) q last = .ok ((A ++ B').map (·.pp), r) ∧ SameAll o Ok view B B' ∧
      (r = none → check = true) ∧
      ∀ x, r = some x → (∀ (i : Nat) e e', B[i]? = some e → B'[i]? = some e' → Began o Ok view check d e e') ∧ PosAll o Ok view (A ++ B') ∧ PQ.Inv (idxLt ((A ++ B').map (·.pp))) x.1 ∧
        x.1.heap.Perm (List.range (A ++ B').length) ∧ (check = true → Apart (A ++ B')) ∧ (∀ e ∈ A ++ B', e.pp.position ≤ x.2) ∧ (x.2 = 0 ∨ ∃ e ∈ A ++ B', e.pp.position = x.2) ∧ 0 ≤ x.2 := by
  intro B
  induction B with
  | nil =>
    intro A q last _ _ hpa hinv hperm hap h1 h2 h3
    refine ⟨[], some (q, last), rfl, .refl _, (fun h => nomatch h), fun x hx => ?_⟩
    cases hx
    rw [List.append_nil] at *
    exact ⟨fun i e e' h => by simp at h, hpa, hinv, hperm, hap, h1, h2, h3⟩
  | cons e B ih =>
    intro A q last hd hf hpa hinv hperm hap h1 h2 h3
    obtain ⟨e1, k1, k2, k3, k4⟩ := firstPos hl (hd e (List.mem_cons_self ..)) (hf e (List.mem_cons_self ..))
    have hget : ((A ++ e :: B).map (·.pp))[A.length]? = some e.pp := by
      rw [List.getElem?_map, List.getElem?_append_right (Nat.le_refl _)]; simp
    have hi1 : (A ++ e1 :: B)[A.length]? = some e1 := by
      rw [List.getElem?_append_right (Nat.le_refl _)]; simp
    obtain ⟨b, e2, m1, m2, m3, m4⟩ := checked_spec hl (check && decide (0 < A.length)) (cnt := A.length - 1) (by rw [List.length_append]; omega) hi1 k3
    rw [set_append_mid] at m1
    rw [List.length_cons, sphInit, hget]
    simp only [Res.ofOption, Res.ok_bind, k1]
    rw [map_pp_set, set_append_mid, m1, Res.ok_bind]
    have hs12 := k2.trans m2
    cases b with
    | false =>
      refine ⟨e2 :: B, none, rfl, .cons hs12 (.refl _), fun _ => ?_, (fun _ h => nomatch h)⟩
      cases hch : check with
      | true => rfl
      | false => rw [hch] at m3; exact nomatch (m3 rfl).1
    | true =>
      obtain ⟨p1, p2, p3⟩ := m4 rfl
      have hoff : e2.pp.offset = e.pp.offset := same_offset hs12
      have hnin : ∀ x ∈ q.heap, x ≠ A.length := fun x hx h => by
        have := List.mem_range.1 (hperm.mem_iff.1 hx); omega
      have hinv1 : PQ.Inv (idxLt ((A ++ e2 :: B).map (·.pp))) q := by
        refine inv_congr hinv fun x hx y hy => ?_
        rw [← set_append_mid A e e2 B, ← map_pp_set, idxLt_set _ _ _ (hnin x hx) (hnin y hy)]
      obtain ⟨q2, u1, u2, _, u4⟩ := PQ.push_spec (idxLt_strictWeak ((A ++ e2 :: B).map (·.pp))) q A.length hinv1
      have hi2 : ((A ++ e2 :: B).map (·.pp))[A.length]? = some e2.pp := by
        rw [List.getElem?_map, List.getElem?_append_right (Nat.le_refl _)]; simp
      have hall : A ++ e2 :: B = (A ++ [e2]) ++ B := by simp
      have hbeg : Began o Ok view check d e e2 := by
        refine ⟨hs12, p1, fun x hx => ?_, fun hc y hy => ?_⟩
        · have := p2.mem hx
          rw [k4, List.mem_map] at this
          obtain ⟨y, hy, rfl⟩ := this
          rw [show y - e.pp.offset + e.pp.offset = y by omega]; exact hy
        · rw [hc] at m3
          rw [(m3 rfl).2, k4]
          exact List.mem_map_of_mem (f := (· - e.pp.offset)) hy
      have hap2 : check = true → Apart (A ++ [e2]) := by
        intro hc i a ha j c hj hcj hne
        have hA := hap hc
        have hli := (List.getElem?_eq_some_iff.1 ha).1
        have hlj := (List.getElem?_eq_some_iff.1 hcj).1
        rw [List.length_append, List.length_singleton] at hli hlj
        have hfree : 2 ≤ A.length → FreeOf (A ++ e1 :: B) (A.length - 1) e1.pp.offset e2.pp.position := fun h => p3 (by rw [hc]; simp; omega)
        have hoff1 : e1.pp.offset = e2.pp.offset := (same_offset m2).symm
        by_cases hi : i = A.length
        · subst hi
          rw [List.getElem?_append_right (Nat.le_refl _)] at ha
          simp at ha
          subst ha
          rw [List.getElem?_append_left (by omega)] at hcj
          have := hfree (by omega) j c (by omega) (by rw [List.getElem?_append_left (by omega)]; exact hcj) (by rw [hoff1]; exact hne)
          rw [hoff1] at this
          exact this
        · rw [List.getElem?_append_left (by omega)] at ha
          by_cases hjA : j = A.length
          · subst hjA
            rw [List.getElem?_append_right (Nat.le_refl _)] at hcj
            simp at hcj
            subst hcj
            have := hfree (by omega) i a (by omega) (by rw [List.getElem?_append_left (by omega)]; exact ha) (by rw [hoff1]; exact Ne.symm hne)
            rw [hoff1] at this
            exact Ne.symm this
          · rw [List.getElem?_append_left (by omega)] at hcj
            exact hA i a ha j c hj hcj hne
      obtain ⟨B', r, v1, v2, v3, v4⟩ := ih (A ++ [e2]) q2 (if e2.pp.position > last then e2.pp.position else last)
        (fun a ha => hd a (List.mem_cons_of_mem _ ha)) (fun a ha => hf a (List.mem_cons_of_mem _ ha))
        (by
          intro a ha
          rcases List.mem_append.1 ha with h | h
          · exact hpa a h
          · rw [List.mem_singleton] at h; subst h; exact p1)
        (by rw [← hall]; exact u2)
        (by
          rw [List.length_append, List.length_singleton, List.range_succ]
          exact u4.trans ((List.Perm.cons _ hperm).trans (List.perm_append_singleton _ _).symm))
        hap2
        (by
          intro a ha
          rcases List.mem_append.1 ha with h | h
          · have := h1 a h; split <;> omega
          · rw [List.mem_singleton] at h; subst h; split <;> omega)
        (by
          split
          · exact .inr ⟨e2, by simp, rfl⟩
          · rcases h2 with h | ⟨a, ha, h⟩
            · exact .inl h
            · exact .inr ⟨a, List.mem_append_left _ ha, h⟩)
        (by split <;> omega)
      have hall' : A ++ e2 :: B' = (A ++ [e2]) ++ B' := by simp
      refine ⟨e2 :: B', r, ?_, .cons hs12 v2, v3, fun x hx => ?_⟩
      · simp only [if_true, hi2, Res.ok_bind, u1]
        rw [hall, hall', ← v1, List.length_append, List.length_singleton]
      · obtain ⟨w1, w2⟩ := v4 x hx
        rw [hall']
        refine ⟨fun i a a' ha ha' => ?_, w2⟩
        cases i with
        | zero => simp at ha ha'; subst ha ha'; exact hbeg
        | succ i => exact w1 i a a' (by simpa using ha) (by simpa using ha')

/-! ### The value -/

/-- Of any two elements with at least one between them, `R` holds. -/
def Far {α : Type} (R : α → α → Prop) : List α → Prop
  | [] => True
  | x :: l => (∀ z ∈ l.tail, R x z) ∧ Far R l

theorem far_of {α : Type} {R : α → α → Prop} : ∀ l : List α, (∀ (i j : Nat) x y, i + 2 ≤ j → l[i]? = some x → l[j]? = some y → R x y) → Far R l := by
  intro l
  induction l with
  | nil => intro _; trivial
  | cons x l ih =>
    intro h
    refine ⟨fun z hz => ?_, ih fun i j a b hij ha hb => h (i + 1) (j + 1) a b (by omega) (by simpa using ha) (by simpa using hb)⟩
    obtain ⟨k, hk⟩ := List.getElem?_of_mem hz
    rw [List.getElem?_tail] at hk
    exact h 0 (k + 2) x z (by omega) rfl (by simpa using hk)

/-- A window of width `k` that ends at or after 0, with a place for each phrase position (offset, positions in
the document): the third component is the position in the document of the word taken. With `check`, phrase
positions with different offsets that are not neighbours in `cs` take different words. -/
def Scored (check : Bool) (l : List (Int × List Int)) (k : Int) : Prop :=
  ∃ (lo : Int) (cs : List ((Int × List Int) × Int)), 0 ≤ lo + k ∧ (cs.map (·.1)).Perm l ∧
    (∀ x ∈ cs, x.2 ∈ x.1.2 ∧ lo ≤ x.2 - x.1.1 ∧ x.2 - x.1.1 ≤ lo + k) ∧ (check = true → Far (fun x y => x.1.1 ≠ y.1.1 → x.2 ≠ y.2) cs)

/-- What the sloppy phrase frequency says: the lengths of the matches scored. -/
def SloppyVal (check : Bool) (slop : Int) (l : List (Int × List Int)) (f : List Int) : Prop :=
  (∀ k ∈ f, 0 ≤ k ∧ k ≤ slop ∧ Scored check l k) ∧
  (check = false → ∀ lo w, 0 ≤ lo + w → w ≤ slop → (∀ x ∈ l, ∃ p ∈ x.2, lo ≤ p - x.1 ∧ p - x.1 ≤ lo + w) → ∃ k ∈ f, k ≤ w)

theorem freqOK_sloppy (hl : Lawful o Ok view) (check : Bool) (slop : Int) :
    FreqOK o Ok view (sphFreq o check slop) (fun ks => 2 ≤ ks.length) (SloppyVal check slop) where
  perm := by
    intro a b f hp h
    refine ⟨fun k hk => ?_, fun hc lo w h0 hw hx => h.2 hc lo w h0 hw fun x hxa => hx x (hp.mem_iff.1 hxa)⟩
    obtain ⟨k1, k2, lo, cs, k3, k4, k5⟩ := h.1 k hk
    exact ⟨k1, k2, lo, cs, k3, k4.trans hp, k5⟩
  prePerm := fun hp h => by rw [← hp.length_eq]; exact h
  spec := by
    intro E idx d hne hidx hd hpre hf
    rw [List.length_map] at hpre
    obtain ⟨E1, r, k1, k2, k3, k4⟩ := sphInit_spec hl check d E [] (PQ.new E.length) 0 hd hf (fun _ h => nomatch h) (PQ.inv_new _ _) (by simp [PQ.new]) (by intro _ i e h; simp at h) (fun _ h => nomatch h) (.inl rfl) (Int.le_refl _)
    simp only [List.nil_append, List.length_nil] at k1 k4
    have hats : ats d (E.map key) = E.map fun e => (e.pp.offset, occAt e.full d) := by
      unfold ats; rw [List.map_map]; rfl
    cases r with
    | none =>
      refine ⟨[], E1, idx, by rw [sphFreq, List.length_map, k1]; rfl, by rw [k2.1]; exact hidx, ⟨(fun _ h => nomatch h), fun hc => ?_⟩, E, .refl _, k2⟩
      rw [k3 rfl] at hc; cases hc
    | some x =>
      obtain ⟨b1, b2, b3, b4, b5, b6, b7, b8⟩ := k4 x rfl
      have hlen : E1.length = E.length := k2.1
      have hleft : posLeft (E1.map (·.pp)) = toCome view E1 := by
        unfold posLeft toCome
        rw [List.map_map]
        congr 1
        apply List.map_congr_left
        intro e he
        simp only [Function.comp_apply, (b2 e he).1.count]
        simp
      obtain ⟨ks, E', v1, v2, v3, v4⟩ := sphLoop_spec hl check slop (posLeft (E1.map (·.pp)) + 1) E1 x.1 x.2 [] (by omega) (by omega) b2 b3 b4 b5 b6 b7 b8
      rw [List.nil_append] at v1
      refine ⟨ks, E', idx, ?_, by rw [v2.1, hlen]; exact hidx, ⟨fun k hk => ?_, fun hc lo w h0 hw hx => ?_⟩, E, .refl _, k2.trans v2⟩
      · rw [sphFreq, List.length_map, k1]
        simp only [Res.ok_bind, v1]
      · obtain ⟨w1, w2, lo, c, w3, w4, w5⟩ := v3 k hk
        refine ⟨w1, w2, lo, E.zipIdx.map fun z => ((z.1.pp.offset, occAt z.1.full d), c z.2 + z.1.pp.offset), w3, ?_, ?_, ?_⟩
        · rw [hats, List.map_map]
          have : (E.zipIdx.map fun z => (z.1.pp.offset, occAt z.1.full d)) = E.map fun e => (e.pp.offset, occAt e.full d) := by
            rw [show (fun z : Ent ε × Nat => (z.1.pp.offset, occAt z.1.full d)) = (fun e : Ent ε => (e.pp.offset, occAt e.full d)) ∘ Prod.fst from rfl, ← List.map_map, List.zipIdx_map_fst]
          exact this ▸ .refl _
        · intro y hy
          obtain ⟨z, hz, rfl⟩ := List.mem_map.1 hy
          have hz1 := List.mem_zipIdx_iff_getElem?.1 hz
          have hz2 : z.2 < E1.length := by rw [hlen]; exact (List.getElem?_eq_some_iff.1 hz1).1
          have hz3 := List.getElem?_eq_getElem hz2
          have hbg := b1 z.2 _ _ hz1 hz3
          have hm := w4.mem z.2 _ hz3
          have hg := w4.ge z.2 _ hz3
          have hle := w4.le z.2 _ hz3
          refine ⟨hbg.mem _ hm, ?_, ?_⟩ <;> simp only [] <;> omega
        · intro hc
          refine far_of _ fun i j a b hij ha hb => ?_
          rw [List.getElem?_map, Option.map_eq_some_iff] at ha hb
          obtain ⟨za, ha1, rfl⟩ := ha
          obtain ⟨zb, hb1, rfl⟩ := hb
          rw [List.getElem?_zipIdx, Option.map_eq_some_iff] at ha1 hb1
          obtain ⟨ea, ha2, rfl⟩ := ha1
          obtain ⟨eb, hb2, rfl⟩ := hb1
          have hi2 : i < E1.length := by rw [hlen]; exact (List.getElem?_eq_some_iff.1 ha2).1
          have hj2 : j < E1.length := by rw [hlen]; exact (List.getElem?_eq_some_iff.1 hb2).1
          have hi3 := List.getElem?_eq_getElem hi2
          have hj3 := List.getElem?_eq_getElem hj2
          have h1 := same_offset (b1 i _ _ ha2 hi3).same
          have h2 := same_offset (b1 j _ _ hb2 hj3).same
          have := w5 hc i j _ _ hij hi3 hj3
          rw [h1, h2] at this
          simpa using this
      · have hch : ∃ c : Nat → Int, Win E1 (rem view) lo w c := by
          have hex : ∀ i : Nat, ∃ y : Int, ∀ e, E1[i]? = some e → y ∈ rem view e ∧ lo ≤ y ∧ y ≤ lo + w := by
            intro i
            cases h1 : E1[i]? with
            | none => exact ⟨0, (fun _ h => nomatch h)⟩
            | some e1 =>
              have hi : i < E.length := by rw [← hlen]; exact (List.getElem?_eq_some_iff.1 h1).1
              have h0' := List.getElem?_eq_getElem hi
              have hbg := b1 i _ _ h0' h1
              obtain ⟨p, p1, p2, p3⟩ := hx (E[i].pp.offset, occAt E[i].full d) (by rw [hats]; exact List.mem_map_of_mem (f := fun e : Ent ε => (e.pp.offset, occAt e.full d)) (List.mem_of_getElem? h0'))
              refine ⟨p - E[i].pp.offset, fun e he => ?_⟩
              cases he
              exact ⟨hbg.all hc p p1, p2, p3⟩
          exact ⟨fun i => (hex i).choose, ⟨fun i e he => ((hex i).choose_spec e he).1, fun i e he => ((hex i).choose_spec e he).2.1, fun i e he => ((hex i).choose_spec e he).2.2⟩⟩
        obtain ⟨c, hc'⟩ := hch
        exact v4 hc lo w c h0 hw hc'

end Ferret.Phrase
