import Verif.Lemmas.TokenRun

/-! Whole programs with streams and analyzers (C96). -/

namespace Ferret.TS
open Ferret Ferret.Spec Ferret.Ana

local notation "Ref" => Nat

/-- What a step has to do. -/
def Does (op : Op) (h : Heap) (vars : List Ref) (W' : World) (out : List (Option Token)) : Prop :=
  ∃ N h' vars', (∀ n, N ≤ n → step n op ⟨h, vars⟩ = .ok (⟨h', vars'⟩, out)) ∧ Good h' (handles vars' W') ∧ Inv h' vars' W'

variable {h : Heap} {vars : List Ref} {W : World}

theorem base_of {h : Heap} {b r : Ref} {z fs rest cl} (hr : Rep h b r z fs rest cl) : baseOf h r = some b := by
  obtain ⟨o, e, _, co⟩ := hr.top
  unfold baseOf; rw [e]; exact co

theorem does_tokenizer (hg : Good h (handles vars W)) (hi : Inv h vars W) (z : List Byte → Res (List Token)) :
    Does (.tokenizer z) h vars (W ++ [some (.stream 1 ⟨z, []⟩ none .fresh)]) [] := by
  have gr := Grow.alloc h (nd := .tz z none 0 ⟨[], 0, 0, 0⟩ h.length) (by intro ts h; cases h)
  have hrep : Rep (h ++ [⟨1, .tz z none 0 ⟨[], 0, 0, 0⟩ h.length⟩]) h.length h.length z [] none true :=
    .tz (text := none) (pos := 0) (tok := ⟨[], 0, 0, 0⟩) (by rw [append_get, if_pos rfl]) Nat.one_pos rfl
  refine ⟨0, _, _, fun n _ => rfl, good_add (hg.alloc _ ?_ ?_ ?_) hi.len rfl, hi.fresh hg gr hrep Nat.one_pos ⟨_, _, hrep, fun _ => rfl⟩⟩
  · intro y; simp [Obj.refs]
  · intro k hk; simp [Obj.refs] at hk
  · intro c hc; simp [Obj.chain] at hc; omega

/-- Taking the only reference of a variable. -/
theorem handles_take {v : Nat} {r : Ref} {x : Held} (hv : vars[v]? = some r) (hw : W[v]? = some (some x)) (hc : x.cnt = 1) (y : Nat) :
    (handles vars W).count y = (r :: handles vars (W.set v none)).count y := by
  have h1 := handles_set vars W v r (some x) none hv hw y
  rw [List.count_cons]
  simp only [heldCnt, hc] at h1
  by_cases hy : y = r
  · subst hy; simp at h1 ⊢; omega
  · have : (r == y) = false := by simp; omega
    simp [hy, this] at h1 ⊢; omega

theorem without {v j : Nat} {y : Held} (h : (W.set v none)[j]? = some (some y)) : j ≠ v ∧ W[j]? = some (some y) := by
  rw [List.getElem?_set] at h
  split at h
  · split at h <;> cases h
  · rename_i hne; exact ⟨fun h => hne h.symm, h⟩

theorem does_wrap (hg : Good h (handles vars W)) (hi : Inv h vars W) {v : Nat} {d : Desc} {f : Make} {flt : Filter} (hw : W[v]? = some (some (.stream 1 d none .fresh))) (hm : meaning f = some flt) :
    Does (.wrap f v) h vars (W.set v none ++ [some (.stream 1 ⟨d.z, d.filters ++ [flt]⟩ none .fresh)]) [] := by
  obtain ⟨r, hv⟩ := var_at hi hw
  obtain ⟨b, cl, hr, hcl⟩ := hi.holds v r _ hv hw
  have := hcl (by decide)
  subst this
  have hg1 : Good h (r :: handles vars (W.set v none)) := hg.congr (handles_take hv hw rfl)
  obtain ⟨r', h', e', rep', g', gr, hle⟩ := wrap_ok hg1 hr hm
  have hi0 := hi.forget v
  have hi1 := hi0.grow hg1 gr
  have bx : ∀ s, (∃ o : Obj, h[s]? = some o ∧ 0 < o.cnt) → baseOf h' s = baseOf h s := by
    rintro s ⟨o, e, l⟩
    obtain ⟨o', e1, _, n⟩ := gr.2.1 s o e l
    unfold baseOf; rw [e, e1]; exact NodeLe.chain n
  refine ⟨0, h', vars ++ [r'], ?_, good_add g' hi0.len rfl, hi1.add hi0.old hle Nat.one_pos ⟨b, true, rep', fun _ => rfl⟩ ?_ ?_⟩
  · intro n _
    simp only [step, hv, Res.ofOption, Res.ok_bind]
    rw [e']; rfl
  · intro _ j s y h1 h2 hy heq
    obtain ⟨hj, h2'⟩ := without h2
    rw [base_of rep', bx s (hi0.holds j s y h1 h2).live, ← base_of hr] at heq
    exact hi.streams v j r s _ y (fun h => hj h.symm) hv hw h1 h2' rfl hy heq
  · intro _ a ts ha heq
    have ha0 := gr.2.2 a ts ha
    rw [base_of rep', bx ts (ana_live hg a ts ha0), ← base_of hr] at heq
    exact hi.kept v r _ hv hw rfl a ts ha0 heq

theorem does_clone (hg : Good h (handles vars W)) (hi : Inv h vars W) {v c : Nat} {d : Desc} {rest ph} (hw : W[v]? = some (some (.stream c d rest ph))) (hm : mayCopy d ph = true) :
    Does (.clone v) h vars (W ++ [some (.stream 1 d rest ph)]) [] := by
  obtain ⟨r, hv⟩ := var_at hi hw
  obtain ⟨b, hr⟩ := mayCopy_clean (hi.holds v r _ hv hw) hm
  obtain ⟨r', h', N, n1, rep', g', gr⟩ := clone_ok hg hr rfl
  refine ⟨N, h', vars ++ [r'], ?_, good_add g' hi.len rfl, hi.fresh hg gr rep' Nat.one_pos ⟨_, _, rep', fun _ => rfl⟩⟩
  intro n hn
  simp only [step, hv, Res.ofOption, Res.ok_bind]
  rw [n1 n hn]; rfl

/-- A stream that moves on. -/
theorem stream_moves (hg : Good h (handles vars W)) (hi : Inv h vars W) {v c : Nat} {d : Desc} {rest ph} {r b : Ref} {h' : Heap} (hv : vars[v]? = some r) (hw : W[v]? = some (some (.stream c d rest ph)))
    (hb : baseOf h r = some b) (a : Chg b r h h') {rest' ph' cl} (hrep : Rep h' b r d.z d.filters rest' cl) (hcl : ph' ≠ .midway → cl = true) :
    Good h' (handles vars (W.set v (some (.stream c d rest' ph')))) ∧ Inv h' vars (W.set v (some (.stream c d rest' ph'))) := by
  have hlt := (List.getElem?_eq_some_iff.1 hw).1
  have hi0 := hi.forget v
  have s1 : ∀ (j s : Nat) (y : Held), vars[j]? = some s → (W.set v none)[j]? = some (some y) → isStream y = true → baseOf h r ≠ baseOf h s := by
    intro j s y h1 h2 hy
    obtain ⟨hj, h2'⟩ := without h2
    exact hi.streams v j r s _ y (fun h => hj h.symm) hv hw h1 h2' rfl hy
  have s2 : ∀ a ts, AnaOf h a ts → baseOf h r ≠ baseOf h ts := hi.kept v r _ hv hw rfl
  have hi1 := hi0.chg hg a hb s1 s2
  refine ⟨?_, ?_⟩
  · refine (a.good hg).congr ?_
    intro y
    have := handles_set vars W v r _ (some (.stream c d rest' ph')) hv hw y
    simp only [heldCnt, Held.cnt] at this
    omega
  · have := hi1.hold (v := v) (r := r) (x := .stream c d rest' ph') hv (by rw [List.getElem?_set_self hlt]) (show 0 < c from hi.pos v _ hw) ⟨b, cl, hrep, hcl⟩ ?_ ?_ ?_
    · rw [List.set_set] at this; exact this
    · intro j s y hj h1 h2
      obtain ⟨_, h2'⟩ := without h2
      exact hi.apart v j r s _ y (fun h => hj h.symm) hv hw h1 h2'
    · intro _ j s y hj h1 h2 hy
      have h3 := s1 j s y h1 h2 hy
      obtain ⟨o, e, l⟩ := (hi0.holds j s y h1 h2).live
      have : baseOf h' s = baseOf h s := by rw [chg_base a s o e l]; unfold baseOf; rw [e]; rfl
      rw [base_of hrep, this, ← hb]; exact h3
    · intro _ x ts hx
      obtain ⟨cx, e, hcx⟩ := hx
      have hxl : x < h.length := by rw [← a.1]; exact lt_of_some e
      have e0 := List.getElem?_eq_getElem hxl
      obtain ⟨o', e', n', _, _, c', dd⟩ := a.2 x _ e0
      rw [e] at e'; cases e'
      have ha0 : AnaOf h x ts := by
        rcases dd with dd | dd | ⟨m, m', hm, hm', _⟩
        · rw [dd.2] at c'; cases c'
        · refine ⟨h[x].cnt, ?_, by simp only at n'; omega⟩
          rw [e0]
          simp only at dd
          cases hh : h[x] with
          | mk cc nn => rw [hh] at dd; simp only at dd; rw [dd]
        · simp only at hm'; cases hm'
      obtain ⟨o, eo, lo⟩ := ana_live hg x ts ha0
      have : baseOf h' ts = baseOf h ts := by rw [chg_base a ts o eo lo]; unfold baseOf; rw [eo]; rfl
      rw [base_of hrep, this, ← hb]; exact s2 x ts ha0

theorem does_reset (hg : Good h (handles vars W)) (hi : Inv h vars W) {v c : Nat} {d : Desc} {rest ph} {text : List Byte} {l : List Token} (hw : W[v]? = some (some (.stream c d rest ph))) (hm : mayCopy d ph = true)
    (ht : tokensOf d text = some l) : Does (.reset v text) h vars (W.set v (some (.stream c d (some l) .fresh))) [] := by
  obtain ⟨r, hv⟩ := var_at hi hw
  obtain ⟨b, hr⟩ := mayCopy_clean (hi.holds v r _ hv hw) hm
  obtain ⟨h', N, a, n1, rep'⟩ := reset_ok hr (tokensOf_some ht)
  obtain ⟨g, i⟩ := stream_moves hg hi hv hw (base_of hr) a rep' (ph' := .fresh) (fun _ => rfl)
  refine ⟨N, h', vars, ?_, g, i⟩
  intro n hn
  simp only [step, hv, Res.ofOption, Res.ok_bind]
  rw [n1 n hn]; rfl

theorem does_next_end (hg : Good h (handles vars W)) (hi : Inv h vars W) {v c : Nat} {d : Desc} {ph} (hw : W[v]? = some (some (.stream c d (some []) ph))) :
    Does (.next v) h vars (W.set v (some (.stream c d (some []) .ended))) [none] := by
  obtain ⟨r, hv⟩ := var_at hi hw
  obtain ⟨b, cl, hr, _⟩ := hi.holds v r _ hv hw
  obtain ⟨h', N, a, n1, rep'⟩ := next_ok hr
  obtain ⟨g, i⟩ := stream_moves hg hi hv hw (base_of hr) a rep' (ph' := .ended) (fun _ => rfl)
  refine ⟨N, h', vars, ?_, g, i⟩
  intro n hn
  simp only [step, hv, Res.ofOption, Res.ok_bind]
  rw [n1 n hn]; rfl

theorem does_next (hg : Good h (handles vars W)) (hi : Inv h vars W) {v c : Nat} {d : Desc} {t : Token} {ts : List Token} {ph} (hw : W[v]? = some (some (.stream c d (some (t :: ts)) ph))) :
    Does (.next v) h vars (W.set v (some (.stream c d (some ts) .midway))) [some t] := by
  obtain ⟨r, hv⟩ := var_at hi hw
  obtain ⟨b, cl, hr, _⟩ := hi.holds v r _ hv hw
  obtain ⟨h', N, cl', a, n1, tk, rep'⟩ := next_ok hr
  obtain ⟨g, i⟩ := stream_moves hg hi hv hw (base_of hr) a rep' (ph' := .midway) (fun h => absurd rfl h)
  refine ⟨N, h', vars, ?_, g, i⟩
  intro n hn
  simp only [step, hv, Res.ofOption, Res.ok_bind]
  rw [n1 n hn, Res.ok_bind]
  simp only [readToken]
  rw [tk]; rfl

theorem does_analyzer (hg : Good h (handles vars W)) (hi : Inv h vars W) {v : Nat} {d : Desc} {rest ph} (hw : W[v]? = some (some (.stream 1 d rest ph))) (hm : mayCopy d ph = true) :
    Does (.analyzer v) h vars (W.set v none ++ [some (.analyzer 1 d)]) [] := by
  obtain ⟨r, hv⟩ := var_at hi hw
  obtain ⟨b, hr⟩ := mayCopy_clean (hi.holds v r _ hv hw) hm
  have hg1 : Good h (r :: handles vars (W.set v none)) := hg.congr (handles_take hv hw rfl)
  have hi0 := hi.forget v
  have hg2 : Good (h ++ [⟨1, .ana r⟩]) (h.length :: handles vars (W.set v none)) := by
    refine hg1.alloc _ ?_ ?_ ?_
    · intro y; simp [Obj.refs, List.count_cons]
    · intro k hk ok ek
      simp only [Obj.refs, List.mem_singleton] at hk
      subst hk
      obtain ⟨o, e, _, co⟩ := hr.top
      rw [e] at ek; cases ek
      exact notPfa_of_chain co
    · intro c hc; cases hc
  have ext : Ext (fun _ => False) h (h ++ [⟨1, .ana r⟩]) := fun x o e l _ => ⟨o, append_old e, l, .inr (.inl rfl)⟩
  have hch : ∀ (x : Ref) (o : Obj), h[x]? = some o → 0 < o.cnt → baseOf (h ++ [⟨1, .ana r⟩]) x = o.chain := by
    intro x o e _
    unfold baseOf; rw [append_old e]; rfl
  have hana : ∀ a ts, AnaOf (h ++ [⟨1, .ana r⟩]) a ts → AnaOf h a ts ∨ ts = r := by
    rintro a ts ⟨c, e, hc⟩
    rw [append_get] at e
    by_cases hx : a = h.length
    · rw [if_pos hx] at e
      simp only [Option.some.injEq, Obj.mk.injEq, Node.ana.injEq] at e
      exact .inr e.2.symm
    · rw [if_neg hx] at e; exact .inl ⟨c, e, hc⟩
  have hi1 : Inv (h ++ [⟨1, .ana r⟩]) vars (W.set v none) := by
    refine hi0.move ext hch (fun i s c d fs _ _ o e l => ⟨o, append_old e, l, rfl⟩) ?_ (fun _ _ _ _ _ _ _ _ h => h) (fun _ _ _ _ _ h => h) (ana_live hg)
    intro a ts ha
    rcases hana a ts ha with ha | rfl
    · exact .inl ha
    · right
      intro i s x h1 h2 hx
      obtain ⟨hj, h2'⟩ := without h2
      obtain ⟨o, e, l, co⟩ := hr.top
      rw [hch _ o e l, co, ← base_of hr]
      exact hi.streams i v s ts x _ hj h1 h2' hv hw hx rfl
  have hold := hr.frame (fun h => h) ext
  refine ⟨0, _, _, ?_, good_add hg2 hi0.len rfl, hi1.add hi0.old (Nat.le_refl _) Nat.one_pos (x := .analyzer 1 d) ⟨1, r, b, rest, by rw [append_get, if_pos rfl], Nat.one_pos, hold⟩ (fun h => by cases h) (fun h => by cases h)⟩
  intro n _
  simp only [step, hv, Res.ofOption, Res.ok_bind]
  rfl

theorem does_perField (hg : Good h (handles vars W)) (hi : Inv h vars W) {v c : Nat} {d : Desc} (hw : W[v]? = some (some (.analyzer c d))) :
    Does (.perField v) h vars (W.set v (Held.analyzer c d).less ++ [some (.perField 1 d [])]) [] := by
  obtain ⟨r, hv⟩ := var_at hi hw
  have hr := hi.holds v r _ hv hw
  have hg1 : Good h (r :: handles vars (W.set v (Held.analyzer c d).less)) := hg.congr (handles_less hi hv hw)
  have hi0 := hi.lessRef hw
  have gr := Grow.alloc h (nd := .pfa r []) (by intro ts h; cases h)
  obtain ⟨c', ts, b, rest, e, hc, rep⟩ := hr
  have hg2 : Good (h ++ [⟨1, .pfa r []⟩]) (h.length :: handles vars (W.set v (Held.analyzer c d).less)) := by
    refine hg1.alloc _ ?_ ?_ ?_
    · intro y; simp [Obj.refs, List.count_cons]
    · intro k hk ok ek
      simp only [Obj.refs, List.map_nil, List.nil_append, List.mem_singleton] at hk
      subst hk
      rw [e] at ek; cases ek; rfl
    · intro c hc; cases hc
  have ha : AnaRep (h ++ [⟨1, .pfa r []⟩]) r d := ⟨c', ts, b, rest, append_old e, hc, rep.frame (P := fun _ => False) (fun h => h) (gr.ext _)⟩
  refine ⟨0, _, _, ?_, good_add hg2 hi0.len rfl, (hi0.grow hg1 gr).add hi0.old (Nat.le_refl _) Nat.one_pos (x := .perField 1 d []) ⟨1, r, [], by rw [append_get, if_pos rfl], Nat.one_pos, ha, trivial⟩ (fun h => by cases h) (fun h => by cases h)⟩
  intro n _
  simp only [step, hv, Res.ofOption, Res.ok_bind]
  rfl

theorem lookup_rep {h : Heap} (f : Nat) : ∀ {rf : List (Nat × Nat)} {fs : List (Nat × Desc)}, DictRep h rf fs →
    (lookup f rf = none ∧ lookup f fs = none) ∨ ∃ a d, lookup f rf = some a ∧ lookup f fs = some d ∧ AnaRep h a d := by
  intro rf
  induction rf with
  | nil => intro fs h1; cases fs with
    | nil => exact .inl ⟨rfl, rfl⟩
    | cons _ _ => exact h1.elim
  | cons e rf ih =>
    intro fs h1
    cases fs with
    | nil => exact h1.elim
    | cons g fs =>
      obtain ⟨h2, h3, h4⟩ := h1
      simp only [lookup]
      rw [← h2]
      by_cases he : e.1 = f
      · rw [if_pos he, if_pos he]; exact .inr ⟨_, _, rfl, rfl, h3⟩
      · rw [if_neg he, if_neg he]; exact ih h4

theorem assign_rep {h : Heap} (f : Nat) {a : Nat} {d : Desc} (ha : AnaRep h a d) : ∀ {rf : List (Nat × Nat)} {fs : List (Nat × Desc)}, DictRep h rf fs → DictRep h (assign f a rf) (assign f d fs) := by
  intro rf
  induction rf with
  | nil => intro fs h1; cases fs with
    | nil => exact ⟨rfl, ha, trivial⟩
    | cons _ _ => exact h1.elim
  | cons e rf ih =>
    intro fs h1
    cases fs with
    | nil => exact h1.elim
    | cons g fs =>
      obtain ⟨h2, h3, h4⟩ := h1
      simp only [assign]
      rw [← h2]
      by_cases he : e.1 = f
      · rw [if_pos he, if_pos he]; exact ⟨rfl, ha, h4⟩
      · rw [if_neg he, if_neg he]; exact ⟨h2, h3, ih h4⟩

theorem assign_count (f a : Nat) (y : Nat) : ∀ (rf : List (Nat × Nat)), ((assign f a rf).map (·.2)).count y + (lookup f rf).toList.count y = (rf.map (·.2)).count y + [a].count y := by
  intro rf
  induction rf with
  | nil => simp [assign, lookup]
  | cons e rf ih =>
    simp only [assign, lookup]
    by_cases he : e.1 = f
    · rw [if_pos he, if_pos he]
      simp only [List.map_cons, List.count_cons, Option.toList_some, List.count_nil]
      omega
    · rw [if_neg he, if_neg he]
      simp only [List.map_cons, List.count_cons, List.count_nil] at ih ⊢
      omega

theorem assign_mem {f a k : Nat} : ∀ {rf : List (Nat × Nat)}, k ∈ (assign f a rf).map (·.2) → k = a ∨ k ∈ rf.map (·.2) := by
  intro rf
  induction rf with
  | nil => intro h; simp [assign] at h; exact .inl h
  | cons e rf ih =>
    intro h
    simp only [assign] at h
    split at h
    · simp only [List.map_cons, List.mem_cons] at h ⊢
      rcases h with h | h
      · exact .inl h
      · exact .inr (.inr h)
    · simp only [List.map_cons, List.mem_cons] at h ⊢
      rcases h with h | h
      · exact .inr (.inl h)
      · rcases ih h with h | h
        · exact .inl h
        · exact .inr (.inr h)

theorem does_addField (hg : Good h (handles vars W)) (hi : Inv h vars W) {p v c cv f : Nat} {d dv : Desc} {fields : List (Nat × Desc)} (hp : W[p]? = some (some (.perField c d fields)))
    (hw : W[v]? = some (some (.analyzer cv dv))) :
    Does (.addField p f v) h vars ((W.set v (Held.analyzer cv dv).less).set p (some (.perField c d (assign f dv fields)))) [] := by
  have hne : p ≠ v := by intro h; subst h; rw [hp] at hw; cases hw
  obtain ⟨r, hv⟩ := var_at hi hp
  obtain ⟨a, hva⟩ := var_at hi hw
  obtain ⟨c', dr, rf, e, hc, hd, hf⟩ := hi.holds p r _ hv hp
  have ha := hi.holds v a _ hva hw
  have hg1 : Good h (a :: handles vars (W.set v (Held.analyzer cv dv).less)) := hg.congr (handles_less hi hva hw)
  have hi0 := hi.lessRef hw
  have hp1 : (W.set v (Held.analyzer cv dv).less)[p]? = some (some (.perField c d fields)) := by
    rw [List.getElem?_set_ne (fun h => hne h.symm)]; exact hp
  generalize hW1 : W.set v (Held.analyzer cv dv).less = W1 at *
  have hlt := (List.getElem?_eq_some_iff.1 hp1).1
  -- the table is changed
  let h1 : Heap := h.set r ⟨c', .pfa dr (assign f a rf)⟩
  have hg2 : Good h1 ((lookup f rf).toList ++ handles vars W1) := by
    refine hg1.set e _ ?_ (fun h => by cases h) ?_ (fun c hc => by cases hc) (fun h => by simp only at h; omega)
    · intro y
      have := assign_count f a y rf
      simp only [Obj.refs, List.count_append, List.count_cons, List.count_nil] at this ⊢
      omega
    · intro k hk
      refine ⟨?_, .inr rfl⟩
      intro ok ek
      rw [set_get h e] at ek
      have hkk : ∀ ok, h[k]? = some ok → ok.isPfa = false := by
        clear ek
        intro ok ek
        simp only [Obj.refs, List.mem_append, List.mem_singleton] at hk
        rcases hk with hk | hk
        · rcases assign_mem hk with rfl | hk
          · obtain ⟨_, _, _, _, e2, _⟩ := ha
            rw [e2] at ek
            cases ek; rfl
          · exact (hg.ord r _ e k (by simp only [Obj.refs, List.mem_append]; exact .inl hk)).1 ok ek
        · exact (hg.ord r _ e k (by simp only [Obj.refs, List.mem_append, List.mem_singleton]; exact .inr hk)).1 ok ek
      split at ek
      · rename_i hkr
        subst hkr
        have := hkk _ e
        cases this
      · exact hkk ok ek
  have ext : Ext (fun _ => False) h h1 := by
    intro x o ex lx px
    have hxr : x ≠ r := by intro h; subst h; rw [e] at ex; cases ex; cases px
    exact ⟨o, by show (h.set r _)[x]? = _; rw [set_get h e, if_neg hxr]; exact ex, lx, .inr (.inl rfl)⟩
  have base : ∀ x, baseOf h1 x = baseOf h x := by
    intro x
    show Option.bind ((h.set r _)[x]?) _ = _
    rw [set_get h e]
    by_cases hxr : x = r
    · subst hxr; rw [if_pos rfl]; unfold baseOf; rw [e]; rfl
    · rw [if_neg hxr]; rfl
  have anas : ∀ x ts, AnaOf h1 x ts → AnaOf h x ts := by
    rintro x ts ⟨cx, ex, hcx⟩
    have ex' : (h.set r ⟨c', .pfa dr (assign f a rf)⟩)[x]? = some ⟨cx, .ana ts⟩ := ex
    rw [set_get h e] at ex'
    split at ex'
    · cases ex'
    · exact ⟨cx, ex', hcx⟩
  have hi1 : Inv h1 vars (W1.set p none) := by
    refine (hi0.forget p).move ext ?_ ?_ (fun a ts ha => .inl (anas a ts ha)) (fun _ _ _ _ _ _ _ _ h => h) (fun _ _ _ _ _ h => h) (ana_live hg)
    · intro x o ex lx
      rw [base]; unfold baseOf; rw [ex]; rfl
    · intro i s cc dd ff h1' h2' o eo lo
      obtain ⟨hj, h2''⟩ := without h2'
      have hsr : s ≠ r := hi0.apart i p s r _ _ hj h1' h2'' hv hp1
      exact ⟨o, by show (h.set r _)[s]? = _; rw [set_get h e, if_neg hsr]; exact eo, lo, rfl⟩
  have fr : ∀ {a d}, AnaRep h a d → AnaRep h1 a d := fun ha => ha.frame ext (fun _ _ _ _ _ h => h)
  have hi2 : Inv h1 vars (W1.set p (some (.perField c d (assign f dv fields)))) := by
    have := hi1.hold (v := p) (r := r) (x := .perField c d (assign f dv fields)) hv (by rw [List.getElem?_set_self hlt]) (show 0 < c from hi.pos p _ hp)
      ⟨c', dr, assign f a rf, by show (h.set r _)[r]? = _; rw [set_get h e, if_pos rfl], hc, fr hd, assign_rep f (fr ha) (hf.imp (fun _ _ _ ha => fr ha))⟩ ?_ (fun h => by cases h) (fun h => by cases h)
    · rw [List.set_set] at this; exact this
    · intro j s y hj h1' h2'
      obtain ⟨_, h2''⟩ := without h2'
      exact hi0.apart p j r s _ y (fun h => hj h.symm) hv hp1 h1' h2''
  have hcount : ∀ y, (handles vars W1).count y = (handles vars (W1.set p (some (.perField c d (assign f dv fields))))).count y := by
    intro y
    have := handles_set vars W1 p r _ (some (.perField c d (assign f dv fields))) hv hp1 y
    simp only [heldCnt, Held.cnt] at this
    omega
  obtain ⟨h2, e2, g2, l2⟩ := release_ok hg2
  have g3 := g2.congr hcount
  refine ⟨0, h2, vars, ?_, g3, hi2.less g3 l2⟩
  intro n _
  simp only [step, hv, hva, Res.ofOption, Res.ok_bind, addField]
  rw [get_ok e hc, Res.ok_bind]
  show (release (lookup f rf).toList h1 >>= _) = _
  rw [e2]; rfl

theorem does_getTs (hg : Good h (handles vars W)) (hi : Inv h vars W) {v f : Nat} {x : Held} {text : List Byte} {d : Desc} {l : List Token} (hw : W[v]? = some (some x))
    (hd : (∃ c, x = .analyzer c d) ∨ ∃ c d0 fields, x = .perField c d0 fields ∧ d = (lookup f fields).getD d0) (ht : tokensOf d text = some l) :
    Does (.getTs v f text) h vars (W ++ [some (.stream 1 d (some l) .fresh)]) [] := by
  obtain ⟨r, hv⟩ := var_at hi hw
  have hx := hi.holds v r x hv hw
  have key : ∃ a, AnaRep h a d ∧ ∀ n, getTs n r f text h = anaGetTs n a text h := by
    rcases hd with ⟨c, rfl⟩ | ⟨c, d0, fields, rfl, hdd⟩
    · refine ⟨r, hx, ?_⟩
      obtain ⟨c', ts, b, rest, e, hc, _⟩ := hx
      intro n
      unfold getTs
      rw [get_ok e hc]; rfl
    · obtain ⟨c', dr, rf, e, hc, ha, hf⟩ := hx
      rcases lookup_rep f hf with ⟨h1, h2⟩ | ⟨a, d1, h1, h2, h3⟩
      · rw [h2] at hdd
        refine ⟨dr, by rw [hdd]; exact ha, ?_⟩
        intro n
        unfold getTs
        rw [get_ok e hc, Res.ok_bind]
        dsimp only
        rw [h1]
      · rw [h2] at hdd
        refine ⟨a, by rw [hdd]; exact h3, ?_⟩
        intro n
        unfold getTs
        rw [get_ok e hc, Res.ok_bind]
        dsimp only
        rw [h1]
  obtain ⟨a, ha, hn⟩ := key
  obtain ⟨r', h', N, n1, rep, g, gr⟩ := anaGetTs_ok hg ha ht
  refine ⟨N, h', vars ++ [r'], ?_, good_add g hi.len rfl, hi.fresh hg gr rep Nat.one_pos ⟨_, _, rep, fun _ => rfl⟩⟩
  intro n hnn
  simp only [step, hv, Res.ofOption, Res.ok_bind]
  rw [hn, n1 n hnn]; rfl

theorem does_ref (hg : Good h (handles vars W)) (hi : Inv h vars W) {v : Nat} {x : Held} (hw : W[v]? = some (some x)) :
    Does (.ref v) h vars (W.set v (some (x.withCnt (x.cnt + 1)))) [] := by
  obtain ⟨r, hv⟩ := var_at hi hw
  obtain ⟨o, e, l⟩ := (hi.holds v r x hv hw).live
  obtain ⟨e1, g1, gr⟩ := ref_ok hg e l
  refine ⟨0, _, vars, ?_, g1.congr ?_, (hi.grow hg gr).recount hw _ (by omega)⟩
  · intro n _
    simp only [step, hv, Res.ofOption, Res.ok_bind]
    rw [e1]; rfl
  · intro y
    have := handles_set vars W v r _ (some (x.withCnt (x.cnt + 1))) hv hw y
    simp only [heldCnt, cnt_withCnt] at this
    rw [List.count_cons]
    by_cases hy : y = r
    · subst hy; simp at this ⊢; omega
    · have hb : (r == y) = false := by simp; omega
      simp [hy, hb] at this ⊢; omega

theorem does_deref (hg : Good h (handles vars W)) (hi : Inv h vars W) {v : Nat} {x : Held} (hw : W[v]? = some (some x)) :
    Does (.deref v) h vars (W.set v x.less) [] := by
  obtain ⟨r, hv⟩ := var_at hi hw
  have hg1 : Good h ([r] ++ handles vars (W.set v x.less)) := hg.congr (handles_less hi hv hw)
  obtain ⟨h', e', g', l'⟩ := release_ok hg1
  refine ⟨0, h', vars, ?_, g', (hi.lessRef hw).less g' l'⟩
  intro n _
  simp only [step, hv, Res.ofOption, Res.ok_bind]
  rw [e']; rfl

theorem step_ok (hg : Good h (handles vars W)) (hi : Inv h vars W) {op : Op} {W' : World} {out : List (Option Token)} (hs : worldStep op W = some (W', out)) : Does op h vars W' out := by
  cases op with
  | tokenizer z => cases hs; exact does_tokenizer hg hi z
  | wrap f v =>
    simp only [worldStep] at hs
    split at hs
    · rename_i d flt hw hm; cases hs; exact does_wrap hg hi (held_at hw) hm
    · cases hs
  | clone v =>
    simp only [worldStep] at hs
    split at hs
    · rename_i c d rest ph hw
      split at hs
      · rename_i hm; cases hs; exact does_clone hg hi (held_at hw) hm
      · cases hs
    · cases hs
  | reset v text =>
    simp only [worldStep] at hs
    split at hs
    · rename_i c d rest ph hw
      split at hs
      · rename_i hm
        cases ht : tokensOf d text with
        | none => rw [ht] at hs; cases hs
        | some l => rw [ht] at hs; cases hs; exact does_reset hg hi (held_at hw) hm ht
      · cases hs
    · cases hs
  | next v =>
    simp only [worldStep] at hs
    split at hs
    · rename_i c d ph hw; cases hs; exact does_next_end hg hi (held_at hw)
    · rename_i c d t ts ph hw; cases hs; exact does_next hg hi (held_at hw)
    · cases hs
  | addMapping v a b => cases hs
  | analyzer v =>
    simp only [worldStep] at hs
    split at hs
    · rename_i d rest ph hw
      split at hs
      · rename_i hm; cases hs; exact does_analyzer hg hi (held_at hw) hm
      · cases hs
    · cases hs
  | perField v =>
    simp only [worldStep] at hs
    split at hs
    · rename_i c d hw; cases hs; exact does_perField hg hi (held_at hw)
    · cases hs
  | addField p f v =>
    simp only [worldStep] at hs
    split at hs
    · rename_i c d fields cv dv hp hw; cases hs; exact does_addField hg hi (held_at hp) (held_at hw)
    · cases hs
  | getTs v f text =>
    simp only [worldStep] at hs
    split at hs
    · rename_i c d hw
      cases ht : tokensOf d text with
      | none => rw [ht] at hs; cases hs
      | some l => rw [ht] at hs; cases hs; exact does_getTs hg hi (held_at hw) (.inl ⟨c, rfl⟩) ht
    · rename_i c d fields hw
      cases ht : tokensOf ((lookup f fields).getD d) text with
      | none => rw [ht] at hs; cases hs
      | some l => rw [ht] at hs; cases hs; exact does_getTs hg hi (held_at hw) (.inr ⟨c, d, fields, rfl, rfl⟩) ht
    · cases hs
  | ref v =>
    simp only [worldStep] at hs
    split at hs
    · rename_i x hw; cases hs; exact does_ref hg hi (held_at hw)
    · cases hs
  | deref v =>
    simp only [worldStep] at hs
    split at hs
    · rename_i x hw; cases hs; exact does_deref hg hi (held_at hw)
    · cases hs

theorem run_ok : ∀ (ops : List Op) (h : Heap) (vars : List Ref) (W : World), Good h (handles vars W) → Inv h vars W → ∀ (W' : World) (out : List (Option Token)), worldRun ops W = some (W', out) →
    ∃ N h' vars', (∀ n, N ≤ n → run n ops ⟨h, vars⟩ = .ok (⟨h', vars'⟩, out)) ∧ Good h' (handles vars' W') ∧ Inv h' vars' W' := by
  intro ops
  induction ops with
  | nil => intro h vars W hg hi W' out hs; cases hs; exact ⟨0, h, vars, fun _ _ => rfl, hg, hi⟩
  | cons op ops ih =>
    intro h vars W hg hi W' out hs
    simp only [worldRun] at hs
    cases h1 : worldStep op W with
    | none => rw [h1] at hs; cases hs
    | some q =>
      obtain ⟨W1, out1⟩ := q
      rw [h1] at hs
      dsimp only at hs
      cases h2 : worldRun ops W1 with
      | none => rw [h2] at hs; cases hs
      | some q2 =>
        obtain ⟨W2, out2⟩ := q2
        rw [h2] at hs
        simp only [Option.map_some, Option.some.injEq, Prod.mk.injEq] at hs
        obtain ⟨rfl, rfl⟩ := hs
        obtain ⟨N1, ha, va, s1, g1, i1⟩ := step_ok hg hi h1
        obtain ⟨N2, hb, vb, s2, g2, i2⟩ := ih ha va W1 g1 i1 W2 out2 h2
        refine ⟨max N1 N2, hb, vb, ?_, g2, i2⟩
        intro n hn
        simp only [run]
        rw [s1 n (by omega), Res.ok_bind]
        dsimp only
        rw [s2 n (by omega)]; rfl

theorem start_good : Good [] (handles [] []) := ⟨fun r => by simp [cntOf, allRefs, handles], fun x o h => by simp at h, fun x o h => by simp at h, fun x o h => by simp at h⟩

theorem start_inv : Inv [] [] [] := ⟨rfl, fun i x h => by simp at h, fun i r x h => by simp at h, fun i j r s x y _ h => by simp at h, fun i j r s x y _ h => by simp at h, fun i r x h => by simp at h⟩

end Ferret.TS
