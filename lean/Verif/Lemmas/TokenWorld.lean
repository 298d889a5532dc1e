import Verif.Lemmas.TokenClone
import Verif.Spec.Streams

/-! Programs with streams and analyzers do what they should (C96). -/

namespace Ferret.TS
open Ferret Ferret.Spec Ferret.Ana

local notation "Ref" => Nat

/-! ### Making filters -/

theorem chain_of {h : Heap} {r b : Ref} {o : Obj} (e : h[r]? = some o) (l : 0 < o.cnt) (hc : o.chain = some b) : chainOf h r = .ok b := by
  unfold chainOf
  rw [get_ok e l, Res.ok_bind]
  unfold Obj.chain at hc
  split at hc
  · rename_i hn; rw [hn]; cases hc; rfl
  · rename_i hn; rw [hn]; cases hc; rfl
  · cases hc

theorem addMaps_ok : ∀ (maps : List (List Byte × List Byte)) (m : MultiMap.Mapper), m.dfa = none → maps.any (fun p => p.1.isEmpty) = false →
    addMaps m maps = .ok ⟨m.maps ++ maps.map (fun p => ⟨p.1, p.2⟩), none⟩ := by
  intro maps
  induction maps with
  | nil => intro m hm _; cases m; simp only at hm; subst hm; simp [addMaps]
  | cons p ps ih =>
    intro m hm hp
    simp only [List.any_cons, Bool.or_eq_false_iff] at hp
    have hne : p.1 ≠ [] := by intro h; rw [h] at hp; simp at hp
    simp only [addMaps, MultiMap.Mapper.add]
    rw [if_neg hne, Res.ok_bind, ih _ rfl hp.2]
    simp

theorem wrap_ok {h : Heap} {R : List Ref} {b r : Ref} {z fs} {f : Make} {flt : Filter} (hg : Good h (r :: R)) (hr : Rep h b r z fs none true) (hm : meaning f = some flt) :
    ∃ r' h', wrap f r h = .ok (r', h') ∧ Rep h' b r' z (fs ++ [flt]) none true ∧ Good h' (r' :: R) ∧ Grow h h' ∧ h.length ≤ r' := by
  obtain ⟨o, e, l, hc⟩ := hr.top
  have hch := chain_of e l hc
  have hb : b ≤ r := hr.le
  have hrl : r < h.length := lt_of_some e
  -- a filter with no other object
  have simple : ∀ k, k.refs = [] → (∀ h' : Heap, Layer h' b k flt none none true) →
      Rep (h ++ [⟨1, .filt k r b⟩]) b h.length z (fs ++ [flt]) none true ∧ Good (h ++ [⟨1, .filt k r b⟩]) (h.length :: R) ∧ Grow h (h ++ [⟨1, .filt k r b⟩]) := by
    intro k hk hl
    have hgr := Grow.alloc h (nd := .filt k r b) (by intro ts h; cases h)
    refine ⟨?_, ?_, hgr⟩
    · exact Rep.filt (by rw [append_get, if_pos rfl]) Nat.one_pos hrl (hr.frame (P := fun _ => False) (fun h => h) (hgr.ext _)) (hl _)
    · refine hg.alloc _ ?_ ?_ ?_
      · intro y; simp [Obj.refs, hk, List.count_cons]
      · intro k' hk' ok ek
        simp only [Obj.refs, hk, List.nil_append, List.mem_singleton] at hk'
        subst hk'
        rw [e] at ek; cases ek
        exact notPfa_of_chain hc
      · intro c hc
        simp only [Obj.chain, Option.some.injEq] at hc
        omega
  -- a filter with another object
  have pair : ∀ (nd : Node) (k : Kind), k.refs = [h.length] → (∀ c : Nat, Obj.refs (Obj.mk c nd) = [] ∧ Obj.chain (Obj.mk c nd) = none ∧ Obj.isPfa (Obj.mk c nd) = false) → (∀ ts, nd ≠ .ana ts) →
      (∀ h' : Heap, h'[h.length]? = some ⟨1, nd⟩ → Layer h' b k flt none none true) →
      Rep (h ++ [⟨1, nd⟩] ++ [⟨1, .filt k r b⟩]) b (h ++ [Obj.mk 1 nd]).length z (fs ++ [flt]) none true ∧ Good (h ++ [⟨1, nd⟩] ++ [⟨1, .filt k r b⟩]) ((h ++ [Obj.mk 1 nd]).length :: R) ∧
        Grow h (h ++ [⟨1, nd⟩] ++ [⟨1, .filt k r b⟩]) := by
    intro nd k hk hnd hna hl
    have hgr1 := Grow.alloc h hna
    have hgr := hgr1.trans (Grow.alloc (h ++ [⟨1, nd⟩]) (nd := .filt k r b) (by intro ts h; cases h))
    have hg1 : Good (h ++ [⟨1, nd⟩]) (h.length :: r :: R) := hg.alloc nd (by intro y; rw [(hnd 1).1]; simp) (by rw [(hnd 1).1]; intro k hk; cases hk) (by rw [(hnd 1).2.1]; intro c hc; cases hc)
    have e1 : (h ++ [⟨1, nd⟩])[h.length]? = some ⟨1, nd⟩ := by rw [append_get, if_pos rfl]
    refine ⟨?_, ?_, hgr⟩
    · exact Rep.filt (by rw [append_get, if_pos rfl]) Nat.one_pos (by simp; omega) (hr.frame (P := fun _ => False) (fun h => h) (hgr.ext _)) (hl _ (append_old e1))
    · refine hg1.alloc _ ?_ ?_ ?_
      · intro y; simp only [Obj.refs, hk, List.count_cons, List.count_append, List.count_nil]; omega
      · intro k' hk' ok ek
        simp only [Obj.refs, hk, List.mem_append, List.mem_singleton] at hk'
        rcases hk' with rfl | rfl
        · rw [e1] at ek; cases ek; exact (hnd 1).2.2
        · rw [append_old e] at ek; cases ek
          exact notPfa_of_chain hc
      · intro c hc
        simp only [Obj.chain, Option.some.injEq] at hc
        simp; omega
  unfold wrap
  rw [hch, Res.ok_bind]
  cases f with
  | plain p =>
    have hp : plainFilter p = some flt := by
      cases p with
      | lower L => exact hm
      | mbLower L => exact hm
      | stem f => cases f with
        | none => cases hm
        | some f => exact hm
    obtain ⟨a1, a2, a3⟩ := simple (.plain p) rfl (fun h' => .plain hp rfl)
    exact ⟨_, _, rfl, a1, a2, a3, Nat.le_refl _⟩
  | hyphen p =>
    cases hm
    obtain ⟨a1, a2, a3⟩ := simple (.hyphen p Hf.new none) rfl (fun h' => .hyphen (hf := Hf.new) (fun h => by simp [Hf.new] at h) ⟨rfl, by simp [Hf.new]⟩)
    exact ⟨_, _, rfl, a1, a2, a3, Nat.le_refl _⟩
  | stop ws =>
    cases hm
    obtain ⟨a1, a2, a3⟩ := pair (.words ws) (.stop h.length) rfl (fun c => ⟨rfl, rfl, rfl⟩) (by intro ts h; cases h) (fun h' e' => .stop e' Nat.one_pos rfl)
    exact ⟨_, _, rfl, a1, a2, a3, by simp⟩
  | mapping maps =>
    simp only [meaning] at hm
    split at hm
    · cases hm
    · rename_i hne
      cases hx : MultiMap.Mapper.compile ⟨maps.map fun p => ⟨p.1, p.2⟩, none⟩ with
      | ok mm =>
        rw [hx] at hm
        cases hm
        have h1 := addMaps_ok maps MultiMap.Mapper.new rfl (Bool.eq_false_iff.2 hne)
        obtain ⟨a1, a2, a3⟩ := pair (.mapper ⟨maps.map fun p => ⟨p.1, p.2⟩, none⟩) (.map h.length) rfl (fun c => ⟨rfl, rfl, rfl⟩) (by intro ts h; cases h)
          (fun h' e' => .map e' Nat.one_pos (.inr ⟨rfl, hx, rfl⟩) (compile_some hx) rfl)
        exact ⟨_, _, by dsimp only; rw [h1]; rfl, a1, a2, a3, by simp⟩
      | raise e => rw [hx] at hm; cases hm
      | ub => rw [hx] at hm; cases hm

/-- Without a hyphen filter no filter is ever within a token. -/
theorem Rep.clean {h : Heap} {b r : Ref} {z fs rest cl} (hr : Rep h b r z fs rest cl) (hf : fs.all (fun f => !isHyphen f) = true) : cl = true := by
  induction hr with
  | tz _ _ _ => rfl
  | filt _ _ _ _ hl ih =>
    simp only [List.all_append, Bool.and_eq_true] at hf
    rw [ih hf.1]
    cases hl with
    | plain _ _ => rfl
    | stop _ _ _ => rfl
    | map _ _ _ _ _ => rfl
    | hyphen _ _ => simp [isHyphen] at hf

/-! ### What the variables hold -/

/-- An analyzer. -/
def AnaRep (h : Heap) (a : Ref) (d : Desc) : Prop := ∃ c ts b rest, h[a]? = some ⟨c, .ana ts⟩ ∧ 0 < c ∧ Rep h b ts d.z d.filters rest true

def DictRep (h : Heap) : List (Nat × Nat) → List (Nat × Desc) → Prop
  | [], [] => True
  | e :: es, f :: fs => e.1 = f.1 ∧ AnaRep h e.2 f.2 ∧ DictRep h es fs
  | _, _ => False

def HoldsAt (h : Heap) (r : Ref) : Held → Prop
  | .stream _ d rest ph => ∃ b cl, Rep h b r d.z d.filters rest cl ∧ (ph ≠ .midway → cl = true)
  | .analyzer _ d => AnaRep h r d
  | .perField _ d fields => ∃ c dr rf, h[r]? = some ⟨c, .pfa dr rf⟩ ∧ 0 < c ∧ AnaRep h dr d ∧ DictRep h rf fields

/-- The tokenizer of a stream. -/
def baseOf (h : Heap) (r : Ref) : Option Ref := h[r]?.bind Obj.chain

def isStream : Held → Bool
  | .stream _ _ _ _ => true
  | _ => false

structure Inv (h : Heap) (vars : List Ref) (W : World) : Prop where
  len : vars.length = W.length
  pos : ∀ (i : Nat) (x : Held), W[i]? = some (some x) → 0 < x.cnt
  holds : ∀ (i r : Nat) (x : Held), vars[i]? = some r → W[i]? = some (some x) → HoldsAt h r x
  /-- No two variables have the same object. -/
  apart : ∀ (i j r s : Nat) (x y : Held), i ≠ j → vars[i]? = some r → W[i]? = some (some x) → vars[j]? = some s → W[j]? = some (some y) → r ≠ s
  /-- No two streams have the same tokenizer. -/
  streams : ∀ (i j r s : Nat) (x y : Held), i ≠ j → vars[i]? = some r → W[i]? = some (some x) → vars[j]? = some s → W[j]? = some (some y) → isStream x = true → isStream y = true →
    baseOf h r ≠ baseOf h s
  /-- No stream has the tokenizer of an analyzer. -/
  kept : ∀ (i r : Nat) (x : Held), vars[i]? = some r → W[i]? = some (some x) → isStream x = true → ∀ a ts, AnaOf h a ts → baseOf h r ≠ baseOf h ts

def heldCnt : Option Held → Nat
  | none => 0
  | some x => x.cnt

/-- The references that the variables have. -/
def handles : List Ref → World → List Ref
  | r :: rs, w :: ws => List.replicate (heldCnt w) r ++ handles rs ws
  | _, _ => []

theorem handles_set : ∀ (vars : List Ref) (W : World) (i : Nat) (r : Ref) (w w' : Option Held), vars[i]? = some r → W[i]? = some w → ∀ y : Nat,
    (handles vars (W.set i w')).count y + (if y = r then heldCnt w else 0) = (handles vars W).count y + (if y = r then heldCnt w' else 0) := by
  intro vars
  induction vars with
  | nil => intro W i r w w' h1; simp at h1
  | cons v vars ih =>
    intro W i r w w' h1 h2 y
    cases W with
    | nil => simp at h2
    | cons a W =>
      cases i with
      | zero =>
        simp only [List.getElem?_cons_zero, Option.some.injEq] at h1 h2
        subst h1 h2
        simp only [List.set_cons_zero, handles, List.count_append, List.count_replicate]
        by_cases hy : y = v
        · subst hy; simp; omega
        · have : (v == y) = false := by simp; omega
          simp [hy, this]
      | succ i =>
        simp only [List.getElem?_cons_succ] at h1 h2
        have := ih W i r w w' h1 h2 y
        simp only [List.set_cons_succ, handles, List.count_append]
        omega

theorem handles_append : ∀ (vars : List Ref) (W : World) (r : Ref) (w : Option Held), vars.length = W.length → handles (vars ++ [r]) (W ++ [w]) = handles vars W ++ List.replicate (heldCnt w) r := by
  intro vars
  induction vars with
  | nil => intro W r w h; cases W with
    | nil => simp [handles]
    | cons _ _ => simp at h
  | cons v vars ih =>
    intro W r w h
    cases W with
    | nil => simp at h
    | cons a W =>
      simp only [List.cons_append, handles, List.append_assoc]
      rw [ih W r w (by simpa using h)]

theorem handles_mem : ∀ (vars : List Ref) (W : World) (i : Nat) (r : Ref) (x : Held), vars[i]? = some r → W[i]? = some (some x) → 0 < x.cnt → r ∈ handles vars W := by
  intro vars W i r x h1 h2 h3
  have := handles_set vars W i r (some x) none h1 h2 r
  simp only [if_true, heldCnt] at this
  exact List.count_pos_iff.1 (by omega)

theorem handles_none : ∀ (vars : List Ref) (W : World), (∀ w ∈ W, w = none) → handles vars W = [] := by
  intro vars
  induction vars with
  | nil => intro W _; cases W <;> rfl
  | cons v vars ih =>
    intro W h
    cases W with
    | nil => rfl
    | cons a W =>
      simp only [handles]
      rw [h a (by simp), ih W (fun w hw => h w (by simp [hw]))]
      rfl

/-! ### Keeping the invariant -/

theorem AnaRep.frame {P : Ref → Prop} {h h' : Heap} {a : Ref} {d : Desc} (hr : AnaRep h a d) (hx : Ext P h h') (hp : ∀ a ts b, AnaOf h a ts → baseOf h ts = some b → ¬ P b) : AnaRep h' a d := by
  obtain ⟨c, ts, b, rest, e, hc, r⟩ := hr
  obtain ⟨⟨c', nd⟩, e', l', hn⟩ := hx _ _ e hc rfl
  rcases hn with ⟨_, h1, _⟩ | hn | ⟨m, m', hm, _⟩
  · cases h1
  · simp only at hn; subst hn
    obtain ⟨o, eo, _, co⟩ := r.top
    exact ⟨c', ts, b, rest, e', l', r.frame (hp a ts b ⟨c, e, hc⟩ (by unfold baseOf; rw [eo]; exact co)) hx⟩
  · cases hm

theorem DictRep.imp {h h' : Heap} : ∀ {rf : List (Nat × Nat)} {fs : List (Nat × Desc)}, DictRep h rf fs → (∀ e ∈ rf, ∀ d, AnaRep h e.2 d → AnaRep h' e.2 d) → DictRep h' rf fs := by
  intro rf
  induction rf with
  | nil => intro fs h1 _; cases fs with
    | nil => trivial
    | cons _ _ => exact h1.elim
  | cons e rf ih =>
    intro fs h1 hx
    cases fs with
    | nil => exact h1.elim
    | cons f fs => exact ⟨h1.1, hx e (by simp) _ h1.2.1, ih h1.2.2 (fun e' he => hx e' (by simp [he]))⟩

theorem holds_cnt {h : Heap} {r : Ref} {x : Held} (c : Nat) : HoldsAt h r (x.withCnt c) ↔ HoldsAt h r x := by cases x <;> rfl
theorem stream_cnt {x : Held} (c : Nat) : isStream (x.withCnt c) = isStream x := by cases x <;> rfl
theorem cnt_withCnt (x : Held) (c : Nat) : (x.withCnt c).cnt = c := by cases x <;> rfl

theorem HoldsAt.live {h : Heap} {r : Ref} {x : Held} (hx : HoldsAt h r x) : ∃ o, h[r]? = some o ∧ 0 < o.cnt := by
  cases x with
  | stream c d rest ph =>
    obtain ⟨b, cl, hr, _⟩ := hx
    obtain ⟨o, e, l, _⟩ := hr.top
    exact ⟨o, e, l⟩
  | analyzer c d => obtain ⟨c, ts, b, rest, e, hc, r⟩ := hx; exact ⟨_, e, hc⟩
  | perField c d fs => obtain ⟨c, dr, rf, e, hc, _⟩ := hx; exact ⟨_, e, hc⟩

/-- Forgetting a variable. -/
theorem Inv.forget {h : Heap} {vars : List Ref} {W : World} (hi : Inv h vars W) (v : Nat) : Inv h vars (W.set v none) := by
  have back : ∀ (i : Nat) (x : Held), (W.set v none)[i]? = some (some x) → W[i]? = some (some x) := by
    intro i x hx
    rw [List.getElem?_set] at hx
    split at hx
    · split at hx <;> cases hx
    · exact hx
  exact ⟨by rw [hi.len]; simp, fun i x hx => hi.pos i x (back i x hx), fun i r x h1 h2 => hi.holds i r x h1 (back i x h2),
    fun i j r s x y hne h1 h2 h3 h4 => hi.apart i j r s x y hne h1 (back i x h2) h3 (back j y h4),
    fun i j r s x y hne h1 h2 h3 h4 => hi.streams i j r s x y hne h1 (back i x h2) h3 (back j y h4),
    fun i r x h1 h2 => hi.kept i r x h1 (back i x h2)⟩

/-- A new variable that holds nothing yet. -/
theorem Inv.push {h : Heap} {vars : List Ref} {W : World} (hi : Inv h vars W) (r : Ref) : Inv h (vars ++ [r]) (W ++ [none]) := by
  have back : ∀ (i : Nat) (x : Held), (W ++ [none])[i]? = some (some x) → W[i]? = some (some x) := by
    intro i x hx
    rw [List.getElem?_append] at hx
    split at hx
    · exact hx
    · rw [List.getElem?_singleton] at hx; split at hx <;> cases hx
  have backv : ∀ (i : Nat) (x : Held) (s : Nat), W[i]? = some (some x) → (vars ++ [r])[i]? = some s → vars[i]? = some s := by
    intro i x s hx hs
    have := (List.getElem?_eq_some_iff.1 hx).1
    rw [List.getElem?_append_left (by rw [hi.len]; exact this)] at hs
    exact hs
  exact ⟨by simp [hi.len], fun i x hx => hi.pos i x (back i x hx), fun i s x h1 h2 => hi.holds i s x (backv i x s (back i x h2) h1) (back i x h2),
    fun i j s s' x y hne h1 h2 h3 h4 => hi.apart i j s s' x y hne (backv i x s (back i x h2) h1) (back i x h2) (backv j y s' (back j y h4) h3) (back j y h4),
    fun i j s s' x y hne h1 h2 h3 h4 => hi.streams i j s s' x y hne (backv i x s (back i x h2) h1) (back i x h2) (backv j y s' (back j y h4) h3) (back j y h4),
    fun i s x h1 h2 => hi.kept i s x (backv i x s (back i x h2) h1) (back i x h2)⟩

/-- Giving a variable something to hold. -/
theorem Inv.hold {h : Heap} {vars : List Ref} {W : World} (hi : Inv h vars W) {v : Nat} {r : Ref} {x : Held} (hv : vars[v]? = some r) (hw : W[v]? = some none) (hc : 0 < x.cnt) (hx : HoldsAt h r x)
    (hap : ∀ (j s : Nat) (y : Held), j ≠ v → vars[j]? = some s → W[j]? = some (some y) → r ≠ s)
    (hst : isStream x = true → ∀ (j s : Nat) (y : Held), j ≠ v → vars[j]? = some s → W[j]? = some (some y) → isStream y = true → baseOf h r ≠ baseOf h s)
    (hk : isStream x = true → ∀ a ts, AnaOf h a ts → baseOf h r ≠ baseOf h ts) : Inv h vars (W.set v (some x)) := by
  have hlt := (List.getElem?_eq_some_iff.1 hw).1
  have at_ : ∀ (i : Nat) (y : Held), (W.set v (some x))[i]? = some (some y) → (i = v ∧ y = x) ∨ (i ≠ v ∧ W[i]? = some (some y)) := by
    intro i y hy
    rw [List.getElem?_set] at hy
    split at hy
    · rename_i hiv
      simp only [Option.some.injEq] at hy
      exact .inl ⟨hiv.symm, hy.symm⟩
    · rename_i hiv
      exact .inr ⟨fun h => hiv h.symm, hy⟩
  refine ⟨by simp [hi.len], ?_, ?_, ?_, ?_, ?_⟩
  · intro i y hy
    rcases at_ i y hy with ⟨_, rfl⟩ | ⟨_, hy⟩
    · exact hc
    · exact hi.pos i y hy
  · intro i s y h1 hy
    rcases at_ i y hy with ⟨rfl, rfl⟩ | ⟨_, hy⟩
    · rw [hv] at h1; cases h1; exact hx
    · exact hi.holds i s y h1 hy
  · intro i j s s' y y' hne h1 hy h3 hy'
    rcases at_ i y hy with ⟨rfl, rfl⟩ | ⟨hi1, hy0⟩
    · rw [hv] at h1; cases h1
      rcases at_ j y' hy' with ⟨rfl, _⟩ | ⟨hj, hy'⟩
      · exact absurd rfl hne
      · exact hap j s' y' hj h3 hy'
    · rcases at_ j y' hy' with ⟨rfl, rfl⟩ | ⟨_, hy'⟩
      · rw [hv] at h3; cases h3
        exact fun h => hap i s y hi1 h1 hy0 h.symm
      · exact hi.apart i j s s' y y' hne h1 hy0 h3 hy'
  · intro i j s s' y y' hne h1 hy h3 hy' t1 t2
    rcases at_ i y hy with ⟨rfl, rfl⟩ | ⟨hi1, hy0⟩
    · rw [hv] at h1; cases h1
      rcases at_ j y' hy' with ⟨rfl, _⟩ | ⟨hj, hy'⟩
      · exact absurd rfl hne
      · exact hst t1 j s' y' hj h3 hy' t2
    · rcases at_ j y' hy' with ⟨rfl, rfl⟩ | ⟨_, hy'⟩
      · rw [hv] at h3; cases h3
        exact fun h => hst t2 i s y hi1 h1 hy0 t1 h.symm
      · exact hi.streams i j s s' y y' hne h1 hy0 h3 hy' t1 t2
  · intro i s y h1 hy t1
    rcases at_ i y hy with ⟨rfl, rfl⟩ | ⟨_, hy⟩
    · rw [hv] at h1; cases h1; exact hk t1
    · exact hi.kept i s y h1 hy t1

/-- Changes of the memory. -/
theorem Inv.move {h h' : Heap} {vars : List Ref} {W : World} {P : Ref → Prop} (hi : Inv h vars W) (hx : Ext P h h')
    (hch : ∀ (x : Ref) (o : Obj), h[x]? = some o → 0 < o.cnt → baseOf h' x = o.chain)
    (hpfa : ∀ (i r c : Nat) (d : Desc) (fs : List (Nat × Desc)), vars[i]? = some r → W[i]? = some (some (.perField c d fs)) → ∀ o : Obj, h[r]? = some o → 0 < o.cnt → ∃ o' : Obj, h'[r]? = some o' ∧ 0 < o'.cnt ∧ o'.node = o.node)
    (hana : ∀ a ts, AnaOf h' a ts → AnaOf h a ts ∨ ∀ (i r : Nat) (x : Held), vars[i]? = some r → W[i]? = some (some x) → isStream x = true → baseOf h r ≠ baseOf h' ts)
    (hp1 : ∀ (i r : Nat) (x : Held) (b : Nat), vars[i]? = some r → W[i]? = some (some x) → isStream x = true → baseOf h r = some b → ¬ P b)
    (hp2 : ∀ a ts b, AnaOf h a ts → baseOf h ts = some b → ¬ P b) (hlive : ∀ a ts, AnaOf h a ts → ∃ o, h[ts]? = some o ∧ 0 < o.cnt) : Inv h' vars W := by
  have base : ∀ (i r : Nat) (x : Held), vars[i]? = some r → W[i]? = some (some x) → baseOf h' r = baseOf h r := by
    intro i r x h1 h2
    obtain ⟨o, e, l⟩ := (hi.holds i r x h1 h2).live
    rw [hch r o e l]; unfold baseOf; rw [e]; rfl
  refine ⟨hi.len, hi.pos, ?_, hi.apart, ?_, ?_⟩
  · intro i r x h1 h2
    have hh := hi.holds i r x h1 h2
    cases x with
    | stream c d rest ph =>
      obtain ⟨b, cl, hr, hc⟩ := hh
      obtain ⟨o, e, l, co⟩ := hr.top
      exact ⟨b, cl, hr.frame (hp1 i r _ b h1 h2 rfl (by unfold baseOf; rw [e]; exact co)) hx, hc⟩
    | analyzer c d => exact AnaRep.frame hh hx hp2
    | perField c d fs =>
      obtain ⟨c', dr, rf, e, hc, hd, hf⟩ := hh
      obtain ⟨⟨c2, nd⟩, e2, l2, n2⟩ := hpfa i r c d fs h1 h2 _ e hc
      simp only at n2
      subst n2
      exact ⟨c2, dr, rf, e2, l2, hd.frame hx hp2, hf.imp (fun _ _ _ ha => ha.frame hx hp2)⟩
  · intro i j r s x y hne h1 h2 h3 h4 t1 t2
    rw [base i r x h1 h2, base j s y h3 h4]
    exact hi.streams i j r s x y hne h1 h2 h3 h4 t1 t2
  · intro i r x h1 h2 t1 a ts ha
    rw [base i r x h1 h2]
    rcases hana a ts ha with h0 | h0
    · obtain ⟨o, e, l⟩ := hlive a ts h0
      have := hi.kept i r x h1 h2 t1 a ts h0
      rw [hch ts o e l]
      unfold baseOf at this ⊢
      rw [e] at this
      exact this
    · exact h0 i r x h1 h2 t1

theorem AnaRep.less {h h' : Heap} {R : List Ref} {a : Ref} {d : Desc} (hr : AnaRep h a d) (hg : Good h' R) (hless : Less h h') (hlive : ∃ o', h'[a]? = some o' ∧ 0 < o'.cnt) : AnaRep h' a d := by
  obtain ⟨c, ts, b, rest, e, hc, r⟩ := hr
  obtain ⟨⟨c', nd⟩, e', l'⟩ := hlive
  obtain ⟨o1, e1, _, n1⟩ := hless.2 _ _ e' l'
  rw [e] at e1; cases e1
  simp only at n1; subst n1
  exact ⟨c', ts, b, rest, e', l', r.less hg hless (hg.live (.inr (mem_allRefs e' (by simp [Obj.refs]))))⟩

/-- Giving up references. -/
theorem Inv.less {h h' : Heap} {vars : List Ref} {W : World} (hi : Inv h vars W) (hg : Good h' (handles vars W)) (hless : Less h h') : Inv h' vars W := by
  have live : ∀ (i r : Nat) (x : Held), vars[i]? = some r → W[i]? = some (some x) → ∃ o' : Obj, h'[r]? = some o' ∧ 0 < o'.cnt := by
    intro i r x h1 h2
    exact hg.live (.inl (handles_mem vars W i r x h1 h2 (hi.pos i x h2)))
  have base : ∀ r : Nat, (∃ o' : Obj, h'[r]? = some o' ∧ 0 < o'.cnt) → baseOf h' r = baseOf h r := by
    rintro r ⟨o', e', l'⟩
    obtain ⟨o, e, _, n⟩ := hless.2 r o' e' l'
    unfold baseOf Obj.chain
    rw [e, e']
    simp only [Option.bind_some]
    rw [n]
  refine ⟨hi.len, hi.pos, ?_, hi.apart, ?_, ?_⟩
  · intro i r x h1 h2
    have hh := hi.holds i r x h1 h2
    have hl := live i r x h1 h2
    cases x with
    | stream c d rest ph =>
      obtain ⟨b, cl, hr, hc⟩ := hh
      exact ⟨b, cl, hr.less hg hless hl, hc⟩
    | analyzer c d => exact AnaRep.less hh hg hless hl
    | perField c d fs =>
      obtain ⟨c', dr, rf, e, hc, hd, hf⟩ := hh
      obtain ⟨⟨c2, nd⟩, e2, l2⟩ := hl
      obtain ⟨o1, e1, _, n1⟩ := hless.2 _ _ e2 l2
      rw [e] at e1; cases e1
      simp only at n1; subst n1
      refine ⟨c2, dr, rf, e2, l2, hd.less hg hless (hg.live (.inr (mem_allRefs e2 (by simp [Obj.refs])))), hf.imp ?_⟩
      intro f hf' d' ha
      exact ha.less hg hless (hg.live (.inr (mem_allRefs e2 (by simp only [Obj.refs, List.mem_append, List.mem_map]; exact .inl ⟨f, hf', rfl⟩))))
  · intro i j r s x y hne h1 h2 h3 h4 t1 t2
    rw [base r (live i r x h1 h2), base s (live j s y h3 h4)]
    exact hi.streams i j r s x y hne h1 h2 h3 h4 t1 t2
  · intro i r x h1 h2 t1 a ts ha
    obtain ⟨c, e, hc⟩ := ha
    rw [base r (live i r x h1 h2), base ts (hg.live (.inr (mem_allRefs e (by simp [Obj.refs]))))]
    obtain ⟨⟨c1, nd⟩, e1, l1, n1⟩ := hless.2 a _ e hc
    simp only at n1; subst n1
    exact hi.kept i r x h1 h2 t1 a ts ⟨c1, e1, l1⟩

end Ferret.TS
