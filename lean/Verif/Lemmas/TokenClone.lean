import Verif.Lemmas.TokenNext

/-! Resetting and copying streams (C96). -/

namespace Ferret.TS
open Ferret Ferret.Spec Ferret.Ana

local notation "Ref" => Nat

theorem filterAll_append (f : Filter) : ∀ (fs : List Filter) (l : List Token), filterAll (fs ++ [f]) l = (filterAll fs l >>= f.tokens) := by
  intro fs
  induction fs with
  | nil =>
    intro l
    simp only [List.nil_append, filterAll, Res.ok_bind]
    cases f.tokens l <;> rfl
  | cons g fs ih =>
    intro l
    simp only [List.cons_append, filterAll]
    cases g.tokens l with
    | ok l' => simp only [Res.ok_bind]; exact ih l'
    | raise e => rfl
    | ub => rfl

/-- Outside of a token it does not matter what a hyphen filter holds. -/
theorem hf_drain_clean (p : Byte → Bool) : ∀ (n : Nat) (h1 h2 : Hf) (l : List Token), ¬ h1.pos < h1.len → ¬ h2.pos < h2.len →
    drain (fun s => hfNext p s.1 s.2) n (h1, l) = drain (fun s => hfNext p s.1 s.2) n (h2, l) := by
  intro n
  induction n with
  | zero => intros; rfl
  | succ n ih =>
    intro h1 h2 l n1 n2
    have key : hfNext p h1 l = hfNext p h2 l ∨ ∃ t l', hfNext p h1 l = .ok (some (t, ({ h1 with tk := some t }, l'))) ∧ hfNext p h2 l = .ok (some (t, ({ h2 with tk := some t }, l'))) := by
      simp only [hfNext]
      rw [if_neg n1, if_neg n2]
      cases l with
      | nil => exact .inl rfl
      | cons t l =>
        dsimp only
        cases ht : t.text with
        | nil => exact .inl rfl
        | cons x xs =>
          dsimp only
          by_cases hs : ((hfScan p xs false).1 && !(hfScan p xs false).2) = true
          · rw [if_pos hs, if_pos hs]; exact .inl rfl
          · rw [if_neg hs, if_neg hs]; exact .inr ⟨t, l, rfl, rfl⟩
    simp only [drain]
    rcases key with k | ⟨t, l', k1, k2⟩
    · rw [k]
    · rw [k1, k2]
      simp only [Res.ok_bind]
      rw [ih { h1 with tk := some t } { h2 with tk := some t } l' n1 n2]

/-- A filter above a stream that was reset. -/
theorem Layer.fresh {h : Heap} {b : Ref} {k f rest rest'} (hl : Layer h b k f rest rest' true) (hm : ∀ m, k = .map m → ∀ c mm, h[m]? = some ⟨c, .mapper mm⟩ → mm.dfa.isSome = true)
    {l l' : List Token} (ht : f.tokens l = .ok l') : Layer h b k f (some l) (some l') true := by
  generalize hlc : true = lc at hl
  cases hl with
  | plain h1 h2 =>
    obtain ⟨n, hn⟩ := plain_tokens h1 ht
    exact .plain h1 ⟨l', n, rfl, hn⟩
  | stop e hc _ => exact .stop e hc ⟨l', _, rfl, ht⟩
  | map e hc hor hs _ =>
    have := hm _ rfl _ _ e
    rcases hor with rfl | ⟨hd, _, _⟩
    · exact .map e hc (.inl rfl) hs ⟨l', _, rfl, ht⟩
    · rw [hd] at this; cases this
  | @hyphen p hf tk _ _ h1 h2 =>
    have hp : ¬ hf.pos < hf.len := by simpa using hlc.symm
    refine .hyphen h1 ⟨l', hyphenFuel l, rfl, ?_⟩
    have ht' : drain (fun s => hfNext p s.1 s.2) (hyphenFuel l) (Hf.new, l) = .ok l' := ht
    rw [← ht']
    exact hf_drain_clean p _ _ _ l hp (by simp [Hf.new])

theorem and_both {a b : Bool} (h : true = (a && b)) : a = true ∧ b = true := by simpa using h.symm

/-- Compiling a mapper, where there is one. -/
theorem compile_ok' {h : Heap} {m c b : Ref} {m0 mm : MultiMap.Mapper} (e : h[m]? = some ⟨c, .mapper m0⟩) (hc : 0 < c) (hs : mm.dfa.isSome = true) (hor : m0 = mm ∨ (m0.dfa = none ∧ m0.compile = .ok mm)) (u : Ref) :
    ∃ h', compileAt m h = .ok h' ∧ Chg b u h h' ∧ h'[m]? = some ⟨c, .mapper mm⟩ ∧ ∀ (x : Ref) (o : Obj), h[x]? = some o → o.chain ≠ none → h'[x]? = some o := by
  have hun : compileAt m h = (match m0.dfa with | none => m0.compile >>= fun mm => .ok (put h m ⟨c, .mapper m0⟩ (.mapper mm)) | some _ => .ok h) := by
    unfold compileAt
    rw [get_ok e hc]; rfl
  rcases hor with rfl | ⟨hd, hcomp⟩
  · refine ⟨h, ?_, Chg.refl _ _ _, e, fun x o ex _ => ex⟩
    rw [hun]
    cases hdd : m0.dfa with
    | none => rw [hdd] at hs; cases hs
    | some d => rfl
  · refine ⟨h.set m ⟨c, .mapper mm⟩, ?_, Chg.set e rfl rfl rfl rfl (.inr (.inr ⟨m0, mm, rfl, rfl, hd, hcomp⟩)), by rw [set_get h e, if_pos rfl], ?_⟩
    · rw [hun, hd]
      dsimp only
      rw [hcomp]; rfl
    · intro x o ex hch
      rw [set_get h e, if_neg]
      · exact ex
      · intro hx; subst hx; rw [e] at ex; cases ex; exact hch rfl

theorem reset_all : ∀ (k : Nat) (b r : Ref) (z : List Byte → Res (List Token)) (fs : List Filter), fs.length = k → ∀ (h : Heap) (rest : Option (List Token)) (text : List Byte) (l : List Token),
    Rep h b r z fs rest true → (z text >>= filterAll fs) = .ok l →
    ∃ h' N, Chg b r h h' ∧ (∀ n, N ≤ n → reset n r text h = .ok h') ∧ Rep h' b r z fs (some l) true := by
  intro k
  induction k with
  | zero =>
    intro b r z fs hk h rest text l hr ht
    generalize hcl : true = cl at hr
    cases hr with
    | @tz c _ text0 pos tok _ e hc _ =>
      refine ⟨_, 1, Chg.set (o' := ⟨c, .tz z (some text) 0 tok b⟩) e rfl rfl rfl rfl (.inl ⟨Nat.le_refl _, rfl⟩), ?_, ?_⟩
      · intro n hn
        obtain ⟨n, rfl⟩ : ∃ k, n = k + 1 := ⟨n - 1, by omega⟩
        show (get h b >>= _) = _
        rw [get_ok e hc]; rfl
      · obtain ⟨l0, h1, h2⟩ := Res.bind_eq_ok.1 ht
        simp only [filterAll, Res.ok.injEq] at h2
        subst h2
        exact .tz (text := some text) (pos := 0) (tok := tok) (by rw [set_get h e, if_pos rfl]) hc ⟨l0, h1, rfl⟩
    | filt => simp at hk
  | succ k ih =>
    intro b r z fs hk h rest text l hr ht
    generalize hcl : true = cl at hr
    cases hr with
    | tz => simp at hk
    | @filt _ c kd sub _ fs rest0 cl0 f _ lc e hc hlt hsub hl =>
      obtain ⟨rfl, rfl⟩ := and_both hcl
      have hkl : fs.length = k := by simp at hk; exact hk
      obtain ⟨l0, h1, h2⟩ := Res.bind_eq_ok.1 ht
      rw [filterAll_append] at h2
      obtain ⟨l1, h3, h4⟩ := Res.bind_eq_ok.1 h2
      have hsubt : (z text >>= filterAll fs) = .ok l1 := by rw [h1]; exact h3
      by_cases hmap : ∃ m, kd = .map m
      · obtain ⟨m, rfl⟩ := hmap
        have hl0 := hl
        cases hl with
        | @map _ cm m0 mm _ _ em hcm hor hs hthru =>
          obtain ⟨ha, ea, ca, ema, sa⟩ := compile_ok' (b := b) em hcm hs (hor.imp id (fun h => ⟨h.1, h.2.1⟩)) sub
          have hsub' : Rep ha b sub z fs rest0 true := by
            refine hsub.frame (P := fun _ => False) (fun h => h) ?_
            intro x o ex lx _
            obtain ⟨o', e', n', _, _, _, d⟩ := ca.2 x o ex
            by_cases hch : o.chain = none
            · rcases d with d | d
              · rw [hch] at d; cases d.2
              · exact ⟨o', e', by omega, .inr d⟩
            · exact ⟨o, sa x o ex hch, lx, .inr (.inl rfl)⟩
          obtain ⟨h', N, c1, n1, r1⟩ := ih b sub z fs hkl ha rest0 text l1 hsub' hsubt
          have hall := ca.trans c1
          refine ⟨h', N + 1, hall.mono (by omega), ?_, ?_⟩
          · intro n hn
            obtain ⟨n, rfl⟩ : ∃ k, n = k + 1 := ⟨n - 1, by omega⟩
            show (get h r >>= _) = _
            rw [get_ok e hc, Res.ok_bind]
            dsimp only
            rw [ea, Res.ok_bind]
            exact n1 n (by omega)
          · have hlay : Layer ha b (.map m) (.map mm) (some l1) (some l) true := .map ema hcm (.inl rfl) hs ⟨l, _, rfl, h4⟩
            have := Rep.filt (hall.top e hlt) hc hlt r1 (hlay.frame (c1.layer _))
            exact this
      · obtain ⟨h', N, c1, n1, r1⟩ := ih b sub z fs hkl h rest0 text l1 hsub hsubt
        refine ⟨h', N + 1, c1.mono (by omega), ?_, ?_⟩
        · intro n hn
          obtain ⟨n, rfl⟩ : ∃ k, n = k + 1 := ⟨n - 1, by omega⟩
          show (get h r >>= _) = _
          rw [get_ok e hc, Res.ok_bind]
          cases kd with
          | map m => exact absurd ⟨m, rfl⟩ hmap
          | plain p => exact n1 n (by omega)
          | stop w => exact n1 n (by omega)
          | hyphen p hf tk => exact n1 n (by omega)
        · have hlay := hl.fresh (fun m hm => absurd ⟨m, hm⟩ hmap) h4
          have := Rep.filt (c1.top e hlt) hc hlt r1 (hlay.frame (c1.layer _))
          exact this

theorem reset_ok {h : Heap} {b r : Ref} {z fs rest} {text : List Byte} {l : List Token} (hr : Rep h b r z fs rest true) (ht : (z text >>= filterAll fs) = .ok l) :
    ∃ h' N, Chg b r h h' ∧ (∀ n, N ≤ n → reset n r text h = .ok h') ∧ Rep h' b r z fs (some l) true := reset_all fs.length b r z fs rfl h rest text l hr ht

/-! ### Growing memory -/

/-- A live analyzer and its stream. -/
def AnaOf (h : Heap) (x ts : Ref) : Prop := ∃ c, h[x]? = some ⟨c, .ana ts⟩ ∧ 0 < c

/-- What is there stays, but mappers may be compiled; there are no new analyzers. -/
def Grow (h h' : Heap) : Prop := h.length ≤ h'.length ∧ (∀ (x : Ref) (o : Obj), h[x]? = some o → 0 < o.cnt → ∃ o', h'[x]? = some o' ∧ 0 < o'.cnt ∧ NodeLe o.node o'.node) ∧
  ∀ x ts, AnaOf h' x ts → AnaOf h x ts

theorem Grow.refl (h : Heap) : Grow h h := ⟨Nat.le_refl _, fun _ o e l => ⟨o, e, l, .inl rfl⟩, fun _ _ h => h⟩
theorem Grow.trans {a b c : Heap} (h1 : Grow a b) (h2 : Grow b c) : Grow a c := by
  refine ⟨Nat.le_trans h1.1 h2.1, ?_, fun x ts h => h1.2.2 x ts (h2.2.2 x ts h)⟩
  intro x o e l
  obtain ⟨o1, e1, l1, n1⟩ := h1.2.1 x o e l
  obtain ⟨o2, e2, l2, n2⟩ := h2.2.1 x o1 e1 l1
  exact ⟨o2, e2, l2, n1.trans n2⟩

theorem NodeLe.chain {c c' : Nat} {a b : Node} (h : NodeLe a b) : Obj.chain ⟨c', b⟩ = Obj.chain ⟨c, a⟩ := by
  rcases h with rfl | ⟨m, m', rfl, rfl, _⟩ <;> rfl

theorem NodeLe.isPfa {c c' : Nat} {a b : Node} (h : NodeLe a b) : Obj.isPfa ⟨c', b⟩ = Obj.isPfa ⟨c, a⟩ := by
  rcases h with rfl | ⟨m, m', rfl, rfl, _⟩ <;> rfl

theorem Grow.ext {h h' : Heap} (g : Grow h h') (P : Ref → Prop) : Ext P h h' := by
  intro x o e l _
  obtain ⟨o1, e1, l1, n1⟩ := g.2.1 x o e l
  exact ⟨o1, e1, l1, .inr n1⟩

theorem Grow.alloc (h : Heap) {nd : Node} (hn : ∀ ts, nd ≠ .ana ts) : Grow h (h ++ [⟨1, nd⟩]) := by
  refine ⟨by simp, fun x o e l => ⟨o, append_old e, l, .inl rfl⟩, ?_⟩
  rintro x ts ⟨c, e, hc⟩
  rw [append_get] at e
  by_cases hx : x = h.length
  · rw [if_pos hx] at e
    simp only [Option.some.injEq, Obj.mk.injEq] at e
    exact absurd e.2 (hn ts)
  · rw [if_neg hx] at e; exact ⟨c, e, hc⟩

theorem ref_ok {h : Heap} {R : List Ref} {r : Ref} {o : Obj} (hg : Good h R) (e : h[r]? = some o) (hl : 0 < o.cnt) :
    ref h r = .ok (h.set r { o with cnt := o.cnt + 1 }) ∧ Good (h.set r { o with cnt := o.cnt + 1 }) (r :: R) ∧ Grow h (h.set r { o with cnt := o.cnt + 1 }) := by
  refine ⟨?_, ?_, ?_⟩
  · unfold ref; rw [get_ok e hl]; rfl
  · refine hg.setCnt e _ (by omega) ?_
    intro y
    rw [List.count_cons]
    by_cases hy : y = r
    · subst hy; simp; omega
    · have : (r == y) = false := by simp; omega
      simp [hy, this]
  · refine ⟨by simp, ?_, ?_⟩
    · intro x ox ex lx
      rw [set_get h e]
      by_cases hx : x = r
      · subst hx
        rw [e] at ex; cases ex
        rw [if_pos rfl]
        exact ⟨_, rfl, by simp, .inl rfl⟩
      · rw [if_neg hx]; exact ⟨ox, ex, lx, .inl rfl⟩
    · rintro x ts ⟨c, ex, hc⟩
      rw [set_get h e] at ex
      by_cases hx : x = r
      · subst hx
        rw [if_pos rfl] at ex
        simp only [Option.some.injEq, Obj.mk.injEq] at ex
        refine ⟨o.cnt, ?_, hl⟩
        rw [e, ← ex.2]
      · rw [if_neg hx] at ex; exact ⟨c, ex, hc⟩

theorem notPfa_of_chain {o : Obj} {c : Ref} (h : o.chain = some c) : o.isPfa = false := by
  unfold Obj.chain at h
  unfold Obj.isPfa
  split at h
  · rename_i hn; rw [hn]
  · rename_i hn; rw [hn]
  · cases h

theorem clone_ok {h : Heap} {R : List Ref} {b r : Ref} {z fs rest cl} (hg : Good h R) (hr : Rep h b r z fs rest cl) (hcl : cl = true) :
    ∃ r' h' N, (∀ n, N ≤ n → clone n r h = .ok (r', h')) ∧ Rep h' h.length r' z fs rest true ∧ Good h' (r' :: R) ∧ Grow h h' := by
  induction hr with
  | @tz c z text pos tok rest e hc ht =>
    refine ⟨h.length, _, 1, ?_, ?_, Good.alloc hg (.tz z text pos tok h.length) ?_ ?_ ?_, Grow.alloc h (by intro ts h; cases h)⟩
    · intro n hn
      obtain ⟨n, rfl⟩ : ∃ k, n = k + 1 := ⟨n - 1, by omega⟩
      show (get h b >>= _) = _
      rw [get_ok e hc]; rfl
    · exact .tz (text := text) (pos := pos) (tok := tok) (by rw [append_get, if_pos rfl]) Nat.one_pos ht
    · intro r; simp [Obj.refs]
    · intro k hk; simp [Obj.refs] at hk
    · intro c hc; simp [Obj.chain] at hc; omega
  | @filt r c k sub z fs rest0 cl0 f rest' lc e hc hlt hsub hl ih =>
    obtain ⟨rfl, rfl⟩ := and_both hcl.symm
    obtain ⟨sub', h1, N, n1, r1, g1, gr1⟩ := ih rfl
    obtain ⟨os, es, ls, cs⟩ := r1.top
    have hchain : chainOf h1 sub' = .ok h.length := by
      unfold chainOf
      rw [get_ok es ls, Res.ok_bind]
      unfold Obj.chain at cs
      split at cs
      · rename_i hn; rw [hn]; cases cs; rfl
      · rename_i hn; rw [hn]; cases cs; rfl
      · cases cs
    -- the references to what the filter shares
    have hshare : ∃ h2, refAll k.refs h1 = .ok h2 ∧ Good h2 (k.refs ++ (sub' :: R)) ∧ Grow h1 h2 ∧ ∀ x ∈ k.refs, ∀ ok, h2[x]? = some ok → ok.isPfa = false := by
      have single : ∀ w o, h[w]? = some o → 0 < o.cnt → o.isPfa = false → ∃ h2, refAll [w] h1 = .ok h2 ∧ Good h2 ([w] ++ (sub' :: R)) ∧ Grow h1 h2 ∧ ∀ x ∈ [w], ∀ ok, h2[x]? = some ok → ok.isPfa = false := by
        intro w o ew lw pw
        obtain ⟨o1, e1, l1, nd1⟩ := gr1.2.1 w o ew lw
        obtain ⟨a, g, gr⟩ := ref_ok g1 e1 l1
        refine ⟨_, by simp only [refAll]; rw [a]; rfl, g, gr, ?_⟩
        intro x hx ok ek
        simp only [List.mem_singleton] at hx
        subst hx
        rw [set_get h1 e1, if_pos rfl] at ek
        cases ek
        exact (NodeLe.isPfa (c := o.cnt) nd1).trans pw
      generalize true = lc at hl
      cases hl with
      | plain _ _ => exact ⟨h1, rfl, g1, Grow.refl _, by intro x hx; cases hx⟩
      | hyphen _ _ => exact ⟨h1, rfl, g1, Grow.refl _, by intro x hx; cases hx⟩
      | stop ew hcw _ => exact single _ _ ew hcw rfl
      | map em hcm _ _ _ => exact single _ _ em hcm rfl
    obtain ⟨h2, e2, g2, gr2, p2⟩ := hshare
    have r2 : Rep h2 h.length sub' z fs rest0 true := r1.frame (P := fun _ => False) (fun h => h) (gr2.ext _)
    have hsub' : sub' < h2.length := by
      obtain ⟨o, e, _⟩ := r2.top; exact lt_of_some e
    refine ⟨h2.length, _, N + 1, ?_, ?_, Good.alloc g2 (.filt k sub' h.length) ?_ ?_ ?_, gr1.trans (gr2.trans (Grow.alloc h2 (by intro ts h; cases h)))⟩
    · intro n hn
      obtain ⟨n, rfl⟩ : ∃ k, n = k + 1 := ⟨n - 1, by omega⟩
      show (get h r >>= _) = _
      rw [get_ok e hc, Res.ok_bind]
      dsimp only
      rw [n1 n (by omega), Res.ok_bind]
      dsimp only
      rw [hchain, Res.ok_bind, e2, Res.ok_bind]
      rfl
    · have gr3 := Grow.alloc h2 (nd := .filt k sub' h.length) (by intro ts h; cases h)
      have hl' : Layer h h.length k f rest0 rest' true := by
        generalize hlc : true = lc at hl
        cases hl with
        | plain a b => exact .plain a b
        | stop a b c => exact .stop a b c
        | map a b c d e => exact .map a b c d e
        | hyphen a b => exact .hyphen (fun hp => by simp [hp] at hlc) b
      have := Rep.filt (b := h.length) (by rw [append_get, if_pos rfl]) Nat.one_pos hsub' (r2.frame (P := fun _ => False) (fun h => h) (gr3.ext _)) (hl'.frame (h' := h2 ++ [⟨1, .filt k sub' h.length⟩]) ?_)
      · exact this
      · intro x _ o ex lx _ _
        obtain ⟨o1, ea, la, na⟩ := (gr1.trans (gr2.trans gr3)).2.1 x o ex lx
        exact ⟨o1, ea, la, na⟩
    · intro y; simp only [Obj.refs, List.count_append, List.count_cons, List.count_nil]; omega
    · intro x hx ok ek
      simp only [Obj.refs, List.mem_append, List.mem_singleton] at hx
      rcases hx with hx | rfl
      · exact p2 x hx ok ek
      · obtain ⟨o, e, _, hch⟩ := r2.top
        rw [e] at ek; cases ek
        exact notPfa_of_chain hch
    · intro c hc
      simp only [Obj.chain, Option.some.injEq] at hc
      have := gr1.1; have := gr2.1
      omega

end Ferret.TS
