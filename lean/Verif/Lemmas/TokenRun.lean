import Verif.Lemmas.TokenWorld

/-! Every step of a program with streams and analyzers (C96). -/

namespace Ferret.TS
open Ferret Ferret.Spec Ferret.Ana

local notation "Ref" => Nat

theorem held_at {W : World} {v : Nat} {x : Held} (h : W.held v = some x) : W[v]? = some (some x) := by
  unfold World.held at h
  split at h
  · rename_i y hy; cases h; exact hy
  · cases h

theorem var_at {h : Heap} {vars : List Ref} {W : World} (hi : Inv h vars W) {v : Nat} {w : Option Held} (hw : W[v]? = some w) : ∃ r, vars[v]? = some r := by
  have := (List.getElem?_eq_some_iff.1 hw).1
  exact ⟨vars[v]'(by rw [hi.len]; exact this), List.getElem?_eq_getElem _⟩

theorem ana_live {h : Heap} {R : List Ref} (hg : Good h R) : ∀ a ts, AnaOf h a ts → ∃ o : Obj, h[ts]? = some o ∧ 0 < o.cnt := by
  rintro a ts ⟨c, e, hc⟩
  exact hg.live (.inr (mem_allRefs e (by simp [Obj.refs])))

theorem Inv.grow {h h' : Heap} {vars : List Ref} {W : World} {R : List Ref} (hi : Inv h vars W) (hg : Good h R) (gr : Grow h h') : Inv h' vars W := by
  refine hi.move (P := fun _ => False) (gr.ext _) ?_ ?_ (fun a ts ha => .inl (gr.2.2 a ts ha)) (fun _ _ _ _ _ _ _ _ h => h) (fun _ _ _ _ _ h => h) (ana_live hg)
  · intro x o e l
    obtain ⟨o', e', _, n⟩ := gr.2.1 x o e l
    unfold baseOf
    rw [e']
    exact NodeLe.chain n
  · intro i r c d fs hv hw o e l
    obtain ⟨o', e', l', n⟩ := gr.2.1 r o e l
    refine ⟨o', e', l', ?_⟩
    obtain ⟨c2, dr, rf, e2, _⟩ := hi.holds i r _ hv hw
    rw [e] at e2; cases e2
    rcases n with n | ⟨m, m', hm, _⟩
    · exact n
    · cases hm

theorem chg_base {b u : Ref} {h h' : Heap} (a : Chg b u h h') : ∀ (x : Ref) (o : Obj), h[x]? = some o → 0 < o.cnt → baseOf h' x = o.chain := by
  intro x o e _
  obtain ⟨o', e', _, _, _, c', _⟩ := a.2 x o e
  unfold baseOf
  rw [e']; exact c'

/-- A stream moves on: the other variables hold what they held. -/
theorem Inv.chg {h h' : Heap} {vars : List Ref} {W : World} {R : List Ref} {b u v : Ref} {r : Ref} (hi : Inv h vars (W.set v none)) (hg : Good h R) (a : Chg b u h h') (hb : baseOf h r = some b)
    (h1 : ∀ (j s : Nat) (y : Held), vars[j]? = some s → (W.set v none)[j]? = some (some y) → isStream y = true → baseOf h r ≠ baseOf h s) (h2 : ∀ a ts, AnaOf h a ts → baseOf h r ≠ baseOf h ts) :
    Inv h' vars (W.set v none) := by
  refine hi.move a.ext (chg_base a) ?_ ?_ ?_ ?_ (ana_live hg)
  · intro i s c d fs hv hw o e l
    obtain ⟨o', e', n', _, p', c', dd⟩ := a.2 s o e
    refine ⟨o', e', by omega, ?_⟩
    rcases dd with dd | dd
    · obtain ⟨c2, dr, rf, e2, _⟩ := hi.holds i s _ hv hw
      rw [e] at e2; cases e2
      cases dd.2
    · obtain ⟨c2, dr, rf, e2, _⟩ := hi.holds i s _ hv hw
      rw [e] at e2; cases e2
      rcases dd with dd | ⟨m, m', hm, _⟩
      · exact dd
      · cases hm
  · rintro x ts ⟨c, e, hc⟩
    have hx : x < h.length := by rw [← a.1]; exact lt_of_some e
    have e0 := List.getElem?_eq_getElem hx
    obtain ⟨o', e', n', _, _, c', dd⟩ := a.2 x _ e0
    rw [e] at e'; cases e'
    left
    rcases dd with dd | dd | ⟨m, m', hm, hm', _⟩
    · rw [dd.2] at c'; cases c'
    · refine ⟨h[x].cnt, ?_, by simp only at n'; omega⟩
      rw [e0]
      simp only at dd
      cases hh : h[x] with
      | mk cc nn => rw [hh] at dd; simp only at dd; rw [dd]
    · simp only at hm'; cases hm'
  · intro i s y b' hv hw ht hb' heq
    subst heq
    exact h1 i s y hv hw ht (by rw [hb, hb'])
  · intro a' ts b' ha hb' heq
    subst heq
    exact h2 a' ts ha (by rw [hb, hb'])

/-- Something new in a new variable. -/
theorem Inv.add {h h' : Heap} {vars : List Ref} {W : World} {r : Ref} {x : Held} (hi : Inv h' vars W) (hold : ∀ (j s : Nat) (y : Held), vars[j]? = some s → W[j]? = some (some y) → s < h.length) (hr : h.length ≤ r) (hc : 0 < x.cnt) (hx : HoldsAt h' r x)
    (hst : isStream x = true → ∀ (j s : Nat) (y : Held), vars[j]? = some s → W[j]? = some (some y) → isStream y = true → baseOf h' r ≠ baseOf h' s)
    (hk : isStream x = true → ∀ a ts, AnaOf h' a ts → baseOf h' r ≠ baseOf h' ts) : Inv h' (vars ++ [r]) (W ++ [some x]) := by
  have hp := hi.push r
  have hset : (W ++ [none]).set W.length (some x) = W ++ [some x] := by
    rw [List.set_append_right _ _ (Nat.le_refl _)]; simp
  have hback : ∀ (j s : Nat) (y : Held), j ≠ W.length → (vars ++ [r])[j]? = some s → (W ++ [none])[j]? = some (some y) → vars[j]? = some s ∧ W[j]? = some (some y) := by
    intro j s y hj h1 h2
    have hlt : j < W.length := by
      have := (List.getElem?_eq_some_iff.1 h2).1
      simp at this; omega
    rw [List.getElem?_append_left hlt] at h2
    rw [List.getElem?_append_left (by rw [hi.len]; exact hlt)] at h1
    exact ⟨h1, h2⟩
  rw [← hset]
  refine hp.hold (r := r) (by rw [← hi.len]; simp) (by simp) hc hx ?_ ?_ hk
  · intro j s y hj h1 h2
    obtain ⟨a, b⟩ := hback j s y hj h1 h2
    have := hold j s y a b
    omega
  · intro hs j s y hj h1 h2 hy
    obtain ⟨a, b⟩ := hback j s y hj h1 h2
    exact hst hs j s y a b hy

theorem good_add {h : Heap} {vars : List Ref} {W : World} {r : Ref} {x : Held} (hg : Good h (r :: handles vars W)) (hl : vars.length = W.length) (hc : x.cnt = 1) : Good h (handles (vars ++ [r]) (W ++ [some x])) := by
  refine hg.congr ?_
  intro y
  rw [handles_append vars W r _ hl]
  simp only [heldCnt, hc, List.replicate_one, List.count_append, List.count_cons, List.count_nil]
  omega

theorem Inv.old {h : Heap} {vars : List Ref} {W : World} (hi : Inv h vars W) : ∀ (j s : Nat) (y : Held), vars[j]? = some s → W[j]? = some (some y) → s < h.length := by
  intro j s y h1 h2
  obtain ⟨o, e, _⟩ := (hi.holds j s y h1 h2).live
  exact lt_of_some e

theorem base_lt {h : Heap} {R : List Ref} (hg : Good h R) {s b : Ref} (hb : baseOf h s = some b) : b < h.length := by
  unfold baseOf at hb
  cases e : h[s]? with
  | none => rw [e] at hb; cases hb
  | some o =>
    rw [e] at hb
    have := hg.chain s o e b hb
    have := lt_of_some e
    omega

/-- A new stream with a new tokenizer. -/
theorem Inv.fresh {h h' : Heap} {vars : List Ref} {W : World} {R : List Ref} {r : Ref} {x : Held} {z fs rest cl} (hi : Inv h vars W) (hg : Good h R) (gr : Grow h h') (hrep : Rep h' h.length r z fs rest cl) (hc : 0 < x.cnt) (hx : HoldsAt h' r x) :
    Inv h' (vars ++ [r]) (W ++ [some x]) := by
  have hi' := hi.grow hg gr
  have hb : baseOf h' r = some h.length := by
    obtain ⟨o, e, _, co⟩ := hrep.top
    unfold baseOf; rw [e]; exact co
  have same : ∀ s, (∃ o : Obj, h[s]? = some o ∧ 0 < o.cnt) → baseOf h' s ≠ some h.length := by
    rintro s ⟨o, e, l⟩ hs
    obtain ⟨o', e', _, n⟩ := gr.2.1 s o e l
    have : baseOf h s = some h.length := by
      rw [← hs]
      unfold baseOf
      rw [e, e']
      exact (NodeLe.chain n).symm
    have := base_lt hg this
    omega
  refine hi'.add hi.old hrep.le hc hx ?_ ?_
  · intro _ j s y h1 h2 _ heq
    rw [hb] at heq
    exact same s (hi.holds j s y h1 h2).live heq.symm
  · intro _ a ts ha heq
    rw [hb] at heq
    exact same ts (ana_live hg a ts (gr.2.2 a ts ha)) heq.symm

/-- Another count. -/
theorem Inv.recount {h : Heap} {vars : List Ref} {W : World} (hi : Inv h vars W) {v : Nat} {x : Held} (hw : W[v]? = some (some x)) (c : Nat) (hc : 0 < c) : Inv h vars (W.set v (some (x.withCnt c))) := by
  obtain ⟨r, hv⟩ := var_at hi hw
  have hlt := (List.getElem?_eq_some_iff.1 hw).1
  have := (hi.forget v).hold (v := v) (r := r) (x := x.withCnt c) hv (by rw [List.getElem?_set_self hlt]) (by rw [cnt_withCnt]; exact hc) ((holds_cnt c).2 (hi.holds v r x hv hw)) ?_ ?_ ?_
  · rw [List.set_set] at this; exact this
  · intro j s y hj h1 h2
    rw [List.getElem?_set_ne (fun h => hj h.symm)] at h2
    exact hi.apart v j r s x y (fun h => hj h.symm) hv hw h1 h2
  · intro ht j s y hj h1 h2 hy
    rw [List.getElem?_set_ne (fun h => hj h.symm)] at h2
    rw [stream_cnt] at ht
    exact hi.streams v j r s x y (fun h => hj h.symm) hv hw h1 h2 ht hy
  · intro ht
    rw [stream_cnt] at ht
    exact hi.kept v r x hv hw ht

theorem Inv.lessRef {h : Heap} {vars : List Ref} {W : World} (hi : Inv h vars W) {v : Nat} {x : Held} (hw : W[v]? = some (some x)) : Inv h vars (W.set v x.less) := by
  unfold Held.less
  split
  · exact hi.forget v
  · rename_i hne
    have := hi.pos v x hw
    exact hi.recount hw _ (by omega)

theorem heldCnt_less {x : Held} (h : 0 < x.cnt) : heldCnt x.less + 1 = x.cnt := by
  unfold Held.less
  split
  · rename_i h1; simp [heldCnt, h1]
  · simp only [heldCnt, cnt_withCnt]; omega

/-- One reference is taken from a variable. -/
theorem handles_less {h : Heap} {vars : List Ref} {W : World} (hi : Inv h vars W) {v : Nat} {r : Ref} {x : Held} (hv : vars[v]? = some r) (hw : W[v]? = some (some x)) (y : Nat) :
    (handles vars W).count y = (r :: handles vars (W.set v x.less)).count y := by
  have h1 := handles_set vars W v r (some x) x.less hv hw y
  have h2 := heldCnt_less (hi.pos v x hw)
  rw [List.count_cons]
  simp only [heldCnt] at h1 h2
  by_cases hy : y = r
  · subst hy; simp at h1 ⊢; omega
  · have : (r == y) = false := by simp; omega
    simp [hy, this] at h1 ⊢; omega

theorem mayCopy_clean {h : Heap} {r : Ref} {c : Nat} {d : Desc} {rest ph} (hx : HoldsAt h r (.stream c d rest ph)) (hm : mayCopy d ph = true) : ∃ b, Rep h b r d.z d.filters rest true := by
  obtain ⟨b, cl, hr, hc⟩ := hx
  refine ⟨b, ?_⟩
  have : cl = true := by
    unfold mayCopy at hm
    simp only [Bool.or_eq_true, decide_eq_true_eq] at hm
    rcases hm with hm | hm
    · exact hc hm
    · exact hr.clean hm
  subst this
  exact hr

theorem tokensOf_some {d : Desc} {text : List Byte} {l : List Token} (h : tokensOf d text = some l) : (d.z text >>= filterAll d.filters) = .ok l := by
  unfold tokensOf Desc.tokens at h
  cases hx : (d.z text >>= filterAll d.filters) with
  | ok l' => rw [hx] at h; cases h; rfl
  | raise e => rw [hx] at h; cases h
  | ub => rw [hx] at h; cases h

/-- A stream from an analyzer. -/
theorem anaGetTs_ok {h : Heap} {R : List Ref} {a : Ref} {d : Desc} {text : List Byte} {l : List Token} (hg : Good h R) (ha : AnaRep h a d) (ht : tokensOf d text = some l) :
    ∃ r' h' N, (∀ n, N ≤ n → anaGetTs n a text h = .ok (r', h')) ∧ Rep h' h.length r' d.z d.filters (some l) true ∧ Good h' (r' :: R) ∧ Grow h h' := by
  obtain ⟨c, ts, b, rest, e, hc, hr⟩ := ha
  obtain ⟨r', h1, N1, n1, rep1, g1, gr1⟩ := clone_ok hg hr rfl
  obtain ⟨h2, N2, c2, n2, rep2⟩ := reset_ok rep1 (tokensOf_some ht)
  refine ⟨r', h2, max N1 N2, ?_, rep2, c2.good g1, ?_⟩
  · intro n hn
    unfold anaGetTs
    rw [get_ok e hc, Res.ok_bind]
    dsimp only
    rw [n1 n (by omega), Res.ok_bind]
    dsimp only
    rw [n2 n (by omega)]; rfl
  · refine ⟨by rw [c2.1]; exact gr1.1, ?_, ?_⟩
    · intro x o ex lx
      obtain ⟨o1, e1, l1, nd1⟩ := gr1.2.1 x o ex lx
      obtain ⟨o2, e2, cn2, _, _, ch2, d2⟩ := c2.2 x o1 e1
      refine ⟨o2, e2, by omega, ?_⟩
      rcases d2 with d2 | d2
      · exfalso
        have h3 : o1.chain = o.chain := NodeLe.chain nd1
        have h4 := hg.chain x o ex _ (h3 ▸ d2.2)
        have := lt_of_some ex
        omega
      · exact nd1.trans d2
    · rintro x ts' hx
      refine gr1.2.2 x ts' ?_
      obtain ⟨c', e', hc'⟩ := hx
      have hx : x < h1.length := by rw [← c2.1]; exact lt_of_some e'
      have e0 := List.getElem?_eq_getElem hx
      obtain ⟨o', e1, n', _, _, ch', dd⟩ := c2.2 x _ e0
      rw [e'] at e1; cases e1
      rcases dd with dd | dd | ⟨m, m', hm, hm', _⟩
      · rw [dd.2] at ch'; cases ch'
      · refine ⟨h1[x].cnt, ?_, by simp only at n'; omega⟩
        rw [e0]
        simp only at dd
        cases hh : h1[x] with
        | mk cc nn => rw [hh] at dd; simp only at dd; rw [dd]
      · simp only at hm'; cases hm'

end Ferret.TS
