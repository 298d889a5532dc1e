import Verif.Model.StreamLife

namespace Ferret.StreamLife
open Ferret Ferret.Spec

structure Inv (st : St) (sp : Streams) : Prop where
  hnd : st.handles = sp.hs.map fun x => if x.2 then some x.1 else none
  len : st.groups.length = sp.subs.length
  rng : ∀ x ∈ sp.hs, x.1 < sp.subs.length
  grp : ∀ (f : Nat) (G : Group), st.groups[f]? = some G → sp.subs[f]? = some G.sub ∧ G.closed = (if sp.users f = 0 then 1 else 0) ∧ (sp.users f ≠ 0 → G.cnt = (sp.users f : Int) - 1)
  mem : ∀ (f s : Nat), (f, true) ∈ sp.hs → sp.subs[f]? = some (some s) → ∃ f', sp.hs[s]? = some (f', true) ∧ sp.subs[f']? = some none

theorem inv_empty : Inv {} {} := by
  refine ⟨rfl, rfl, ?_, ?_, ?_⟩
  · intro x hx; cases hx
  · intro f G h; simp at h
  · intro f s h; cases h

theorem users_pos {sp : Streams} {f : Nat} (h : (f, true) ∈ sp.hs) : sp.users f ≠ 0 := by
  unfold Streams.users
  have : 0 < sp.hs.countP fun x => decide (x = (f, true)) := List.countP_pos_iff.2 ⟨_, h, by simp⟩
  omega

theorem look_ok {st : St} {sp : Streams} (h : Inv st sp) {i f : Nat} (hi : sp.hs[i]? = some (f, true)) :
    ∃ G, look st i = .ok (f, G) ∧ st.groups[f]? = some G ∧ G.closed = 0 ∧ sp.subs[f]? = some G.sub ∧ G.cnt = (sp.users f : Int) - 1 := by
  have hm : (f, true) ∈ sp.hs := List.mem_of_getElem? hi
  have hlt : f < st.groups.length := by rw [h.len]; exact h.rng _ hm
  have hG : st.groups[f]? = some st.groups[f] := List.getElem?_eq_getElem hlt
  obtain ⟨g1, g2, g3⟩ := h.grp f _ hG
  have hu := users_pos hm
  rw [if_neg hu] at g2
  refine ⟨_, ?_, hG, g2, g1, g3 hu⟩
  unfold look
  have : st.handles[i]? = some (some f) := by rw [h.hnd, List.getElem?_map, hi]; rfl
  rw [this]
  dsimp only
  rw [hG]
  exact if_pos g2

theorem users_append (sp : Streams) (g f : Nat) : ({ sp with hs := sp.hs ++ [(g, true)] } : Streams).users f = sp.users f + if f = g then 1 else 0 := by
  unfold Streams.users
  rw [List.countP_append, List.countP_singleton]
  congr 1
  by_cases hfg : f = g
  · subst hfg; simp
  · simp [hfg, Ne.symm hfg]

theorem users_close {sp : Streams} {i g : Nat} (hi : sp.hs[i]? = some (g, true)) (f : Nat) :
    ({ sp with hs := sp.hs.set i (g, false) } : Streams).users f = sp.users f - if f = g then 1 else 0 := by
  unfold Streams.users
  obtain ⟨hl, he⟩ := List.getElem?_eq_some_iff.1 hi
  rw [List.countP_set hl, he]
  by_cases hfg : f = g
  · subst hfg; simp
  · simp [hfg, Ne.symm hfg]

/-- A file is added. -/
theorem add_inv {st : St} {sp : Streams} (h : Inv st sp) (sub : Option Nat) (hs : ∀ s, sub = some s → ∃ f', sp.hs[s]? = some (f', true) ∧ sp.subs[f']? = some none) :
    Inv { handles := st.handles ++ [some st.groups.length], groups := st.groups ++ [{ sub := sub }] } { hs := sp.hs ++ [(sp.subs.length, true)], subs := sp.subs ++ [sub] } := by
  have hu : ∀ f, ({ hs := sp.hs ++ [(sp.subs.length, true)], subs := sp.subs ++ [sub] } : Streams).users f = sp.users f + if f = sp.subs.length then 1 else 0 :=
    fun f => users_append sp sp.subs.length f
  have h0 : sp.users sp.subs.length = 0 := by
    unfold Streams.users
    apply List.countP_eq_zero.2
    intro x hx
    simp only [decide_eq_true_eq]
    rintro rfl
    exact absurd (h.rng _ hx) (Nat.lt_irrefl _)
  refine ⟨?_, by simp [h.len], ?_, ?_, ?_⟩
  · show st.handles ++ _ = _
    rw [h.hnd, h.len, List.map_append]
    rfl
  · intro x hx
    show x.1 < (sp.subs ++ [sub]).length
    rw [List.length_append, List.length_singleton]
    rcases List.mem_append.1 hx with hx | hx
    · have := h.rng x hx; omega
    · rw [List.mem_singleton.1 hx]; exact Nat.lt_succ_self _
  · intro f G hG
    rw [hu]
    have hG' : (st.groups ++ [({ sub := sub } : Group)])[f]? = some G := hG
    by_cases hf : f < st.groups.length
    · rw [List.getElem?_append_left hf] at hG'
      obtain ⟨a1, a2, a3⟩ := h.grp f G hG'
      rw [h.len] at hf
      rw [if_neg (show ¬ f = sp.subs.length by omega), Nat.add_zero]
      refine ⟨?_, a2, a3⟩
      show (sp.subs ++ [sub])[f]? = _
      rw [List.getElem?_append_left hf]
      exact a1
    · have hf' : f = st.groups.length := by
        have := (List.getElem?_eq_some_iff.1 hG').1
        rw [List.length_append, List.length_singleton] at this
        omega
      subst hf'
      rw [List.getElem?_append_right (Nat.le_refl _), Nat.sub_self] at hG'
      cases hG'
      rw [h.len, h0, if_pos rfl]
      refine ⟨?_, rfl, fun _ => rfl⟩
      show (sp.subs ++ [sub])[sp.subs.length]? = _
      rw [List.getElem?_append_right (Nat.le_refl _), Nat.sub_self]
      rfl
  · have old : ∀ s : Nat, (∃ f', sp.hs[s]? = some (f', true) ∧ sp.subs[f']? = some none) →
        ∃ f', (sp.hs ++ [(sp.subs.length, true)])[s]? = some (f', true) ∧ (sp.subs ++ [sub])[f']? = some none := by
      rintro s ⟨f', b1, b2⟩
      exact ⟨f', by rw [List.getElem?_append_left (List.getElem?_eq_some_iff.1 b1).1]; exact b1, by rw [List.getElem?_append_left (List.getElem?_eq_some_iff.1 b2).1]; exact b2⟩
    intro f s hf hsub
    have hsub' : (sp.subs ++ [sub])[f]? = some (some s) := hsub
    rcases List.mem_append.1 hf with hf | hf
    · rw [List.getElem?_append_left (h.rng _ hf)] at hsub'
      exact old s (h.mem f s hf hsub')
    · cases List.mem_singleton.1 hf
      rw [List.getElem?_append_right (Nat.le_refl _), Nat.sub_self] at hsub'
      exact old s (hs s (by simpa using hsub'))

theorem step_inv {st : St} {sp sp' : Streams} (h : Inv st sp) (op : StreamOp) (hs : streamsStep true sp op = some sp') :
    ∃ st', step st op = .ok st' ∧ Inv st' sp' := by
  cases op with
  | openFile =>
    cases hs
    exact ⟨_, rfl, add_inv h none (by intro s hs; cases hs)⟩
  | member s =>
    unfold streamsStep at hs
    dsimp only at hs
    split at hs
    · next f hi =>
      split at hs
      · next hn =>
        cases hs
        obtain ⟨G, g1, -⟩ := look_ok h hi
        refine ⟨_, by show openMember st s = _; unfold openMember; rw [g1, Res.ok_bind], add_inv h (some s) ?_⟩
        intro s' hs'
        cases hs'
        exact ⟨f, hi, hn⟩
      · cases hs
    · cases hs
  | read i =>
    unfold streamsStep at hs
    dsimp only at hs
    split at hs
    · next f hi =>
      cases hs
      obtain ⟨G, g1, g2, g3, g4, g5⟩ := look_ok h hi
      refine ⟨st, ?_, h⟩
      show isRead st i = _
      unfold isRead
      rw [g1, Res.ok_bind]
      dsimp only
      cases hsub : G.sub with
      | none => rfl
      | some s =>
        rw [hsub] at g4
        obtain ⟨f', b1, b2⟩ := h.mem f s (List.mem_of_getElem? hi) g4
        obtain ⟨G', c1, c2, c3, c4, c5⟩ := look_ok h b1
        dsimp only
        rw [c1, Res.ok_bind]
        rw [b2] at c4
        exact if_pos (Option.some.inj c4).symm
    · cases hs
  | copy i =>
    unfold streamsStep at hs
    dsimp only at hs
    split at hs
    · next f hi =>
      cases hs
      have hm : (f, true) ∈ sp.hs := List.mem_of_getElem? hi
      obtain ⟨G, g1, g2, g3, g4, g5⟩ := look_ok h hi
      refine ⟨_, by show isClone st i = _; unfold isClone; rw [g1, Res.ok_bind], ?_, ?_, ?_, ?_, ?_⟩
      · show st.handles ++ _ = _
        rw [h.hnd, List.map_append]
        rfl
      · show (st.groups.set _ _).length = _
        rw [List.length_set, h.len]
      · intro x hx
        rcases List.mem_append.1 hx with hx | hx
        · exact h.rng x hx
        · rw [List.mem_singleton.1 hx]; exact h.rng _ hm
      · intro f' G' hG'
        rw [users_append]
        have hG'' : (st.groups.set f { G with cnt := G.cnt + 1 })[f']? = some G' := hG'
        by_cases hff : f' = f
        · subst hff
          rw [List.getElem?_set_self (List.getElem?_eq_some_iff.1 g2).1] at hG''
          cases hG''
          rw [if_pos rfl, if_neg (by omega)]
          refine ⟨g4, g3, fun _ => ?_⟩
          show G.cnt + 1 = _
          rw [g5]
          omega
        · rw [List.getElem?_set_ne (Ne.symm hff)] at hG''
          rw [if_neg hff, Nat.add_zero]
          exact h.grp f' G' hG''
      · intro f' s hf' hsub
        have : (f', true) ∈ sp.hs := by
          rcases List.mem_append.1 hf' with hx | hx
          · exact hx
          · cases List.mem_singleton.1 hx; exact hm
        obtain ⟨f'', b1, b2⟩ := h.mem f' s this hsub
        exact ⟨f'', by show (sp.hs ++ _)[s]? = _; rw [List.getElem?_append_left (List.getElem?_eq_some_iff.1 b1).1]; exact b1, b2⟩
    · cases hs
  | close i =>
    unfold streamsStep at hs
    dsimp only at hs
    split at hs
    · next f hi =>
      split at hs
      · cases hs
      · next hp =>
        cases hs
        have hm : (f, true) ∈ sp.hs := List.mem_of_getElem? hi
        have hu := users_pos hm
        obtain ⟨G, g1, g2, g3, g4, g5⟩ := look_ok h hi
        refine ⟨_, by show isClose st i = _; unfold isClose; rw [g1, Res.ok_bind], ?_, ?_, ?_, ?_, ?_⟩
        · show st.handles.set i none = _
          rw [h.hnd]
          exact (List.map_set (f := fun x : Nat × Bool => if x.2 then some x.1 else none) (l := sp.hs) (i := i) (a := (f, false))).symm
        · show (st.groups.set _ _).length = _
          rw [List.length_set, h.len]
        · intro x hx
          rcases List.mem_or_eq_of_mem_set hx with hx | hx
          · exact h.rng x hx
          · rw [hx]; exact h.rng (f, true) hm
        · intro f' G' hG'
          rw [users_close hi]
          have hG'' : (st.groups.set f (if G.cnt - 1 < 0 then { G with cnt := G.cnt - 1, closed := G.closed + 1 } else { G with cnt := G.cnt - 1 }))[f']? = some G' := hG'
          by_cases hff : f' = f
          · subst hff
            rw [List.getElem?_set_self (List.getElem?_eq_some_iff.1 g2).1] at hG''
            rw [if_pos rfl]
            by_cases hn : G.cnt - 1 < 0
            · rw [if_pos hn] at hG''
              cases hG''
              rw [if_pos (by omega)]
              exact ⟨g4, by show G.closed + 1 = 1; rw [g3], fun hne => absurd (by omega) hne⟩
            · rw [if_neg hn] at hG''
              cases hG''
              rw [if_neg (by omega)]
              refine ⟨g4, g3, fun _ => ?_⟩
              show G.cnt - 1 = _
              omega
          · rw [List.getElem?_set_ne (Ne.symm hff)] at hG''
            rw [if_neg hff, Nat.sub_zero]
            exact h.grp f' G' hG''
        · intro f' s hf' hsub
          have hf'' : (f', true) ∈ sp.hs := by
            rcases List.mem_or_eq_of_mem_set hf' with hx | hx
            · exact hx
            · cases hx
          obtain ⟨f2, b1, b2⟩ := h.mem f' s hf'' hsub
          have hne : i ≠ s := by
            rintro rfl
            apply hp
            rw [Bool.true_and]
            unfold Streams.hasParts
            exact List.any_eq_true.2 ⟨_, hf'', by simpa using hsub⟩
          exact ⟨f2, by show (sp.hs.set i _)[s]? = _; rw [List.getElem?_set_ne hne]; exact b1, b2⟩
    · cases hs

theorem run_inv : ∀ (ops : List StreamOp) {st : St} {sp sp' : Streams}, Inv st sp → streamsRun true sp ops = some sp' → ∃ st', run st ops = .ok st' ∧ Inv st' sp' := by
  intro ops
  induction ops with
  | nil => intro st sp sp' h hs; cases hs; exact ⟨st, rfl, h⟩
  | cons op ops ih =>
    intro st sp sp' h hs
    obtain ⟨sp1, a1, a2⟩ := Option.bind_eq_some_iff.1 hs
    obtain ⟨st1, b1, b2⟩ := step_inv h op a1
    obtain ⟨st2, c1, c2⟩ := ih b2 a2
    exact ⟨st2, by rw [run, b1, Res.ok_bind]; exact c1, c2⟩

end Ferret.StreamLife

namespace Ferret.StreamLife
open Ferret Ferret.Spec

/-- Only files of their own. -/
def noParts (sp : Streams) : Prop := ∀ s ∈ sp.subs, s = none

theorem noParts_has {sp : Streams} (h : noParts sp) (s : Nat) : sp.hasParts s = false := by
  unfold Streams.hasParts
  rw [List.any_eq_false]
  intro x _ hx
  simp only [Bool.and_eq_true, decide_eq_true_eq] at hx
  cases h _ (List.mem_of_getElem? hx.2)

theorem step_noParts {sp sp' : Streams} (h : noParts sp) {op : StreamOp} (ho : ∀ s, op ≠ .member s) (hs : streamsStep false sp op = some sp') :
    streamsStep true sp op = some sp' ∧ noParts sp' := by
  cases op with
  | openFile =>
    refine ⟨hs, ?_⟩
    cases hs
    intro s hs
    rcases List.mem_append.1 hs with hs | hs
    · exact h s hs
    · exact List.mem_singleton.1 hs
  | member s => exact absurd rfl (ho s)
  | read i =>
    refine ⟨hs, ?_⟩
    unfold streamsStep at hs
    dsimp only at hs
    split at hs
    · cases hs; exact h
    · cases hs
  | copy i =>
    refine ⟨hs, ?_⟩
    unfold streamsStep at hs
    dsimp only at hs
    split at hs
    · cases hs; exact h
    · cases hs
  | close i =>
    unfold streamsStep at hs ⊢
    dsimp only at hs ⊢
    split at hs
    · rw [Bool.false_and] at hs
      rw [noParts_has h, Bool.and_false]
      refine ⟨hs, ?_⟩
      cases hs
      exact h
    · cases hs

theorem run_noParts : ∀ (ops : List StreamOp) {sp sp' : Streams}, noParts sp → (∀ s, StreamOp.member s ∉ ops) → streamsRun false sp ops = some sp' → streamsRun true sp ops = some sp' := by
  intro ops
  induction ops with
  | nil => intro sp sp' _ _ hs; exact hs
  | cons op ops ih =>
    intro sp sp' h hm hs
    obtain ⟨sp1, a1, a2⟩ := Option.bind_eq_some_iff.1 hs
    obtain ⟨b1, b2⟩ := step_noParts h (fun s e => hm s (by rw [e]; exact List.mem_cons_self)) a1
    exact Option.bind_eq_some_iff.2 ⟨sp1, b1, ih b2 (fun s hs => hm s (List.mem_cons_of_mem _ hs)) a2⟩

theorem streamsRun_append (o : Bool) : ∀ (a b : List StreamOp) (sp : Streams), streamsRun o sp (a ++ b) = (streamsRun o sp a).bind fun x => streamsRun o x b := by
  intro a
  induction a with
  | nil => intro b sp; rfl
  | cons op a ih =>
    intro b sp
    show (streamsStep o sp op).bind _ = ((streamsStep o sp op).bind _).bind _
    rw [Option.bind_assoc]
    congr 1
    funext x
    exact ih b x

/-- Copies of the stream at `i`. -/
theorem copies (o : Bool) (i f : Nat) : ∀ (n : Nat) (sp : Streams), sp.hs[i]? = some (f, true) →
    streamsRun o sp (List.replicate n (.copy i)) = some { sp with hs := sp.hs ++ List.replicate n (f, true) } := by
  intro n
  induction n with
  | zero => intro sp _; simp [streamsRun]
  | succ n ih =>
    intro sp h
    rw [List.replicate_succ]
    show (streamsStep o sp (.copy i)).bind _ = _
    have : streamsStep o sp (.copy i) = some { sp with hs := sp.hs ++ [(f, true)] } := by
      unfold streamsStep; dsimp only; rw [h]
    rw [this, Option.bind_some, ih _ (by show (sp.hs ++ _)[i]? = _; rw [List.getElem?_append_left (List.getElem?_eq_some_iff.1 h).1]; exact h)]
    rw [List.replicate_succ, List.append_assoc]
    rfl

/-- Reading streams that are not closed. -/
theorem readsOk (o : Bool) (sp : Streams) : ∀ (l : List Nat), (∀ i ∈ l, ∃ f, sp.hs[i]? = some (f, true)) → streamsRun o sp (l.map .read) = some sp := by
  intro l
  induction l with
  | nil => intro _; rfl
  | cons i l ih =>
    intro h
    obtain ⟨f, hf⟩ := h i List.mem_cons_self
    show (streamsStep o sp (.read i)).bind _ = _
    have : streamsStep o sp (.read i) = some sp := by unfold streamsStep; dsimp only; rw [hf]
    rw [this, Option.bind_some]
    exact ih fun j hj => h j (List.mem_cons_of_mem _ hj)

theorem lazyPlain_spec (o : Bool) (n : Nat) : streamsRun o {} (lazyPlain n) = some { hs := (0, false) :: List.replicate n (0, true), subs := [none] } := by
  unfold lazyPlain
  rw [streamsRun_append, streamsRun_append, streamsRun_append]
  have h1 : streamsRun o {} [.openFile] = some { hs := [(0, true)], subs := [none] } := rfl
  rw [h1, Option.bind_some, copies o 0 0 n _ rfl, Option.bind_some]
  have hp : ({ hs := [(0, true)] ++ List.replicate n (0, true), subs := [none] } : Streams).hasParts 0 = false :=
    noParts_has (by intro s hs; exact List.mem_singleton.1 hs) 0
  have h2 : streamsRun o { hs := [(0, true)] ++ List.replicate n (0, true), subs := [none] } [.close 0] = some { hs := (0, false) :: List.replicate n (0, true), subs := [none] } := by
    show (streamsStep o _ (.close 0)).bind _ = _
    have : streamsStep o { hs := [(0, true)] ++ List.replicate n (0, true), subs := [none] } (.close 0) = some { hs := (0, false) :: List.replicate n (0, true), subs := [none] } := by
      show (if (o && _) = true then none else _) = _
      rw [hp, Bool.and_false]
      rfl
    rw [this]
    rfl
  rw [h2, Option.bind_some]
  have : (List.range n).map (fun i => StreamOp.read (i + 1)) = ((List.range n).map (· + 1)).map .read := by rw [List.map_map]; rfl
  rw [this]
  apply readsOk
  intro i hi
  obtain ⟨j, hj, rfl⟩ := List.mem_map.1 hi
  refine ⟨0, ?_⟩
  show (List.replicate n (0, true))[j]? = _
  rw [List.getElem?_replicate, if_pos (List.mem_range.1 hj)]

end Ferret.StreamLife

namespace Ferret.StreamLife
open Ferret Ferret.Spec

theorem run_append : ∀ (a b : List StreamOp) (st : St), run st (a ++ b) = run st a >>= fun x => run x b := by
  intro a
  induction a with
  | nil => intro b st; rfl
  | cons op a ih =>
    intro b st
    show (step st op >>= fun x => run x (a ++ b)) = (step st op >>= fun x => run x a) >>= fun x => run x b
    cases step st op with
    | ok x => exact ih b x
    | raise e => rfl
    | ub => rfl

/-- A reader of a packed segment and `n` copies of its field data. -/
def packedCopies (n : Nat) : St := { handles := some 0 :: some 1 :: List.replicate n (some 1), groups := [{}, { cnt := n, sub := some 0 }] }

theorem packed_copies : ∀ (n : Nat), run {} ([.openFile, .member 0] ++ List.replicate n (.copy 1)) = .ok (packedCopies n) := by
  intro n
  induction n with
  | zero => rfl
  | succ n ih =>
    rw [List.replicate_succ', ← List.append_assoc, run_append, ih, Res.ok_bind]
    show isClone (packedCopies n) 1 >>= _ = _
    have hl : look (packedCopies n) 1 = .ok (1, { cnt := n, sub := some 0 }) := rfl
    unfold isClone
    rw [hl]
    show Res.ok _ = Res.ok _
    unfold packedCopies
    rw [List.replicate_succ']
    rfl

theorem packed_ub (n : Nat) : run {} (lazyPacked (n + 1)) = .ub := by
  unfold lazyPacked
  rw [run_append, run_append, packed_copies, Res.ok_bind]
  have h1 : run (packedCopies (n + 1)) [.close 1, .close 0] = .ok { handles := none :: none :: List.replicate (n + 1) (some 1), groups := [{ cnt := -1, closed := 1 }, { cnt := n, sub := some 0 }] } := by
    show isClose (packedCopies (n + 1)) 1 >>= _ = _
    have hl : look (packedCopies (n + 1)) 1 = .ok (1, { cnt := (n + 1 : Nat), sub := some 0 }) := rfl
    unfold isClose
    rw [hl, Res.ok_bind, Res.ok_bind]
    dsimp only
    rw [if_neg (by omega)]
    have : ((n + 1 : Nat) : Int) - 1 = n := by omega
    rw [this]
    rfl
  rw [h1, Res.ok_bind, List.range_succ_eq_map, List.map_cons]
  rfl

/-- The client used nothing it had closed. -/
theorem packed_allowed (n : Nat) : (streamsRun false {} (lazyPacked n)).isSome = true := by
  unfold lazyPacked
  rw [streamsRun_append, streamsRun_append, streamsRun_append]
  have h1 : streamsRun false {} [.openFile, .member 0] = some { hs := [(0, true), (1, true)], subs := [none, some 0] } := rfl
  rw [h1, Option.bind_some, copies false 1 1 n _ rfl, Option.bind_some]
  have h2 : streamsRun false { hs := [(0, true), (1, true)] ++ List.replicate n (1, true), subs := [none, some 0] } [.close 1, .close 0] =
      some { hs := (0, false) :: (1, false) :: List.replicate n (1, true), subs := [none, some 0] } := rfl
  rw [h2, Option.bind_some]
  have : (List.range n).map (fun i => StreamOp.read (i + 2)) = ((List.range n).map (· + 2)).map .read := by rw [List.map_map]; rfl
  rw [this, readsOk]
  · rfl
  · intro i hi
    obtain ⟨j, hj, rfl⟩ := List.mem_map.1 hi
    refine ⟨1, ?_⟩
    show (List.replicate n (1, true))[j]? = _
    rw [List.getElem?_replicate, if_pos (List.mem_range.1 hj)]

end Ferret.StreamLife
