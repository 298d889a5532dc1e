import Verif.Lemmas.PhraseDoc

/-! Phrase scorers: the scorer goes from each matching document to the next. -/

namespace Ferret.Phrase

open Ferret.Post (Posting)
open Ferret.Scorer (rotL rotL_head rotL_prev rotL_set_first rotL_set_prev rotL_mem perm_map_lift Arith View Ops Moved NextAfter Good)

variable {ε F S : Type} {o : TdeOps ε} {Ok : ε → Prop} {view : ε → Tde}

/-- The documents of `pre` have been passed. -/
structure Passed (Ok : ε → Prop) (view : ε → Tde) (e : Ent ε) (st : ε) (pre : List Posting) : Prop where
  tpe : e.pp.tpe = some st
  ok : Ok st
  full : e.full = pre ++ (view st).rest

/-- The phrase position has come to the first of its documents from `n` on. -/
structure Came (o : TdeOps ε) (Ok : ε → Prop) (view : ε → Tde) (n : Int) (e e' : Ent ε) : Prop where
  key : key e' = key e
  fresh : Fresh Ok view e'.pp.doc e'
  ge : n ≤ e'.pp.doc
  least : ∀ q ∈ e.full, n ≤ (q.doc : Int) → e'.pp.doc ≤ q.doc
  left : leftOf o e'.pp < leftOf o e.pp

/-- The outcome of moving a phrase position to the first of its documents from `n` on. -/
def Outcome (o : TdeOps ε) (Ok : ε → Prop) (view : ε → Tde) (n : Int) (e : Ent ε) (r : Bool × PhPos ε) : Prop :=
  (r.1 = false ∧ ∀ q ∈ e.full, (q.doc : Int) < n) ∨ (r.1 = true ∧ ∃ e', r.2 = e'.pp ∧ Came o Ok view n e e')

theorem moved_true (hl : Lawful o Ok view) {e : Ent ε} {st st' : ε} {pre sk : List Posting} {p : Posting} {l : List Posting} {n : Int} (h : Passed Ok view e st pre)
    (hd : DocsOK e.full) (hr : (view st).rest = sk ++ p :: l) (h1 : ∀ q ∈ pre, (q.doc : Int) < n) (h2 : ∀ q ∈ sk, (q.doc : Int) < n) (h3 : n ≤ (p.doc : Int))
    (k1 : Ok st') (k2 : view st' = ⟨p.doc, p.freq, p.occ, l⟩) (k3 : o.left st' < o.left st) : Outcome o Ok view n e (ppMoved o e.pp (true, st')) := by
  have hfull : e.full = (pre ++ sk) ++ p :: l := by rw [h.full, hr, List.append_assoc]
  refine .inr ⟨rfl, ⟨{ e.pp with tpe := some st', doc := o.doc st', position := 0 }, e.full⟩, rfl, rfl, ?_, ?_, ?_, ?_⟩
  · refine ⟨st', p, ⟨rfl, k1, ⟨pre ++ sk, by rw [k2]; exact hfull⟩, ?_, by rw [k2], by rw [k2], by rw [k2]⟩, ?_⟩
    · show o.doc st' = _; rw [hl.doc k1, k2]
    · show _ = o.doc st'; rw [hl.doc k1, k2]
  · show n ≤ o.doc st'; rw [hl.doc k1, k2]; exact h3
  · intro q hq hn
    show o.doc st' ≤ _
    rw [hl.doc k1, k2]
    have ha := hd.asc
    rw [hfull] at hq ha
    rcases List.mem_append.1 hq with hq | hq
    · rcases List.mem_append.1 hq with hq | hq
      · have := h1 q hq; omega
      · have := h2 q hq; omega
    · rcases List.mem_cons.1 hq with rfl | hq
      · exact Int.le_refl _
      · have := (List.pairwise_cons.1 (List.pairwise_append.1 ha).2.1).1 q hq
        show (p.doc : Int) ≤ q.doc
        omega
  · simp only [leftOf, h.tpe]; exact k3

theorem ppSkipTo_spec (hl : Lawful o Ok view) {e : Ent ε} {st : ε} {pre : List Posting} {n : Int} (h : Passed Ok view e st pre) (hd : DocsOK e.full)
    (h1 : ∀ q ∈ pre, (q.doc : Int) < n) : ∃ r, ppSkipTo o e.pp n = .ok r ∧ Outcome o Ok view n e r := by
  have hs := hl.skip n h.ok
  have htw := List.takeWhile_append_dropWhile (p := fun p : Posting => decide ((p.doc : Int) < n)) (l := (view st).rest)
  have hsk : ∀ q ∈ (view st).rest.takeWhile (fun p : Posting => decide ((p.doc : Int) < n)), (q.doc : Int) < n := by
    intro q hq
    have := List.all_eq_true.1 (List.all_takeWhile (p := fun p : Posting => decide ((p.doc : Int) < n)) (l := (view st).rest)) q hq
    simpa using this
  have hun : ∀ x, o.skipTo st n = .ok x → ppSkipTo o e.pp n = .ok (ppMoved o e.pp x) := by
    intro x hx
    rw [ppSkipTo, h.tpe]
    show (o.skipTo st n >>= _) = _
    rw [hx, Res.ok_bind]
  cases hdw : (view st).rest.dropWhile (fun p : Posting => decide ((p.doc : Int) < n)) with
  | nil =>
    obtain ⟨st', k⟩ := hs.1 hdw
    refine ⟨_, hun _ k, .inl ⟨rfl, fun q hq => ?_⟩⟩
    rw [hdw, List.append_nil] at htw
    rw [h.full, ← htw] at hq
    rcases List.mem_append.1 hq with hq | hq
    · exact h1 q hq
    · exact hsk q hq
  | cons p l =>
    obtain ⟨st', k0, k1, k2, k3⟩ := hs.2 p l hdw
    have hp : n ≤ (p.doc : Int) := by
      have := List.head?_dropWhile_not (fun p : Posting => decide ((p.doc : Int) < n)) (view st).rest
      rw [hdw] at this; simpa using this
    exact ⟨_, hun _ k0, moved_true hl h hd (by rw [← hdw, htw]) h1 hsk hp k1 k2 k3⟩

theorem ppNext_spec (hl : Lawful o Ok view) {e : Ent ε} {st : ε} {pre : List Posting} {lo : Int} (h : Passed Ok view e st pre) (hd : DocsOK e.full)
    (h1 : ∀ q ∈ pre, (q.doc : Int) ≤ lo) (h2 : ∀ q ∈ (view st).rest, lo < (q.doc : Int)) : ∃ r, ppNext o e.pp = .ok r ∧ Outcome o Ok view (lo + 1) e r := by
  have hs := hl.next h.ok
  have hun : ∀ x, o.next st = .ok x → ppNext o e.pp = .ok (ppMoved o e.pp x) := by
    intro x hx
    rw [ppNext, h.tpe]
    show (o.next st >>= _) = _
    rw [hx, Res.ok_bind]
  cases hr : (view st).rest with
  | nil =>
    obtain ⟨st', k⟩ := hs.1 hr
    refine ⟨_, hun _ k, .inl ⟨rfl, fun q hq => ?_⟩⟩
    rw [h.full, hr, List.append_nil] at hq
    have := h1 q hq; omega
  | cons p l =>
    obtain ⟨st', k0, k1, k2, k3⟩ := hs.2 p l hr
    refine ⟨_, hun _ k0, moved_true hl h hd (sk := []) (by rw [hr]; rfl) (fun q hq => by have := h1 q hq; omega) (fun q hq => nomatch hq) ?_ k1 k2 k3⟩
    have := h2 p (by rw [hr]; exact List.mem_cons_self ..)
    omega

theorem AtDoc.passed {d : Int} {e : Ent ε} (h : AtDoc Ok view d e) (hd : DocsOK e.full) :
    ∃ st pre, Passed Ok view e st pre ∧ (∀ q ∈ pre, (q.doc : Int) ≤ d) ∧ (∀ q ∈ (view st).rest, d < (q.doc : Int)) ∧ ∃ q ∈ e.full, (q.doc : Int) = d := by
  obtain ⟨st, p, l, ha, hpd⟩ := h
  obtain ⟨pre, hf⟩ := ha.full
  have has := hd.asc
  rw [hf] at has
  obtain ⟨a1, a2, a3⟩ := List.pairwise_append.1 has
  refine ⟨st, pre ++ [p], ⟨ha.tpe, ha.ok, by rw [hf]; simp⟩, fun q hq => ?_, fun q hq => ?_, p, by rw [hf]; simp, hpd⟩
  · rcases List.mem_append.1 hq with hq | hq
    · have := a3 q hq p (List.mem_cons_self ..); omega
    · simp at hq; subst hq; omega
  · have := (List.pairwise_cons.1 a2).1 q hq; omega

/-! ### The loop over documents -/

def InAll (ks : List Key) (x : Int) : Prop := ∀ k ∈ ks, ∃ q ∈ k.2, (q.doc : Int) = x

theorem Came.docs {n : Int} {e e' : Ent ε} (h : Came o Ok view n e e') : e'.full = e.full := congrArg Prod.snd h.key

section
variable (ks : List Key) (M : Int → Prop) (lo : Int)

/-- The documents looked for. -/
def Target (x : Int) : Prop := InAll ks x ∧ lo < x ∧ M x

/-- While looking for the first target. -/
structure DInv (o : TdeOps ε) (Ok : ε → Prop) (view : ε → Tde) (E : List (Ent ε)) (idx : Nat) : Prop where
  keys : (E.map key).Perm ks
  lt : idx < E.length
  at_ : ∀ e ∈ E, AtDoc Ok view e.pp.doc e
  below : ∀ x, Target ks M lo x → ∀ e ∈ E, e.pp.doc ≤ x
  sorted : (rotL idx E).Pairwise fun a b => a.pp.doc ≤ b.pp.doc
  last : ∀ z, (rotL idx E).getLast? = some z → lo < z.pp.doc ∧ ∀ e ∈ E, e.pp.doc < z.pp.doc ∨ Fresh Ok view e.pp.doc e

/-- The scorer has come to a document for which `N` holds, not after the first target. -/
def PhFound (N : Int → Prop) (o : TdeOps ε) (Ok : ε → Prop) (view : ε → Tde) (Val : List (Int × List Int) → F → Prop) (zero : F → Bool) (s s' : PhSc ε F S) (bound : Nat) : Prop :=
  ∃ (d : Int) (f : F) (E : List (Ent ε)), Target ks N lo d ∧ (∀ x, Target ks M lo x → d ≤ x) ∧ (E.map key).Perm ks ∧ (∀ e ∈ E, AtDoc Ok view d e) ∧ (Val (ats d ks) f ∧ zero f = false) ∧
    s'.pps = E.map (·.pp) ∧ s'.idx < E.length ∧ s'.doc = d ∧ s'.freq = some f ∧ s'.more = true ∧ s'.firstTime = s.firstTime ∧
    s'.tfw = s.tfw ∧ s'.norm = s.norm ∧ docsLeft o s'.pps ≤ bound

end

theorem inAll_key {ks : List Key} {E : List (Ent ε)} (hk : (E.map key).Perm ks) {x : Int} : InAll ks x ↔ ∀ e ∈ E, ∃ q ∈ e.full, (q.doc : Int) = x := by
  constructor
  · intro h e he
    exact h (key e) (hk.mem_iff.1 (List.mem_map_of_mem he))
  · intro h k hkm
    obtain ⟨e, he, hek⟩ := List.mem_map.1 (hk.mem_iff.2 hkm)
    rw [← hek]; exact h e he

theorem keys_set {E : List (Ent ε)} {i : Nat} {e e' : Ent ε} (he : E[i]? = some e) (h : key e' = key e) : (E.set i e').map key = E.map key := by
  rw [List.map_set, h]
  apply List.ext_getElem?
  intro j
  by_cases hij : i = j
  · subst hij
    have hlt := (List.getElem?_eq_some_iff.1 he).1
    rw [List.getElem?_set_self (by simpa using hlt), List.getElem?_map, he]; rfl
  · rw [List.getElem?_set_ne hij]

theorem docsLeft_set {E : List (Ent ε)} {i : Nat} {e e' : Ent ε} (he : E[i]? = some e) :
    docsLeft o ((E.set i e').map (·.pp)) + leftOf o e.pp = docsLeft o (E.map (·.pp)) + leftOf o e'.pp := by
  rw [docsLeft_eq, docsLeft_eq]
  exact sum_set (fun e => leftOf o e.pp) he

theorem doNext_spec (hl : Lawful o Ok view) {pf : Freq ε F} {Pre Val} (hpf : FreqOK o Ok view pf Pre Val) {zero : F → Bool} {ks : List Key} {M N : Int → Prop}
    (hdocs : ∀ k ∈ ks, DocsOK k.2) (hpre : Pre ks) (hM : ∀ d f, Val (ats d ks) f → (M d → zero f = false) ∧ (zero f = false → N d)) (lo : Int) :
    ∀ (fuel : Nat) (E : List (Ent ε)) (idx : Nat) (s : PhSc ε F S), docsLeft o (E.map (·.pp)) + 2 ≤ fuel → s.more = true → s.pps = E.map (·.pp) →
      DInv ks M lo o Ok view E idx →
      ∃ r, doNext o pf zero fuel idx s = .ok r ∧
        ((r.1 = true ∧ PhFound ks M lo N o Ok view Val zero s r.2 (docsLeft o (E.map (·.pp)))) ∨ (r.1 = false ∧ ∀ x, ¬ Target ks M lo x)) := by
  intro fuel
  induction fuel with
  | zero => intro E idx s h; omega
  | succ n ih =>
    intro E idx s hf hm hs inv
    have hidx := inv.lt
    have hpl : prevNum idx E.length < E.length := Nat.mod_lt _ (by omega)
    obtain ⟨first, hfirst⟩ : ∃ x, E[idx]? = some x := ⟨_, List.getElem?_eq_getElem hidx⟩
    obtain ⟨last, hlast⟩ : ∃ x, E[prevNum idx E.length]? = some x := ⟨_, List.getElem?_eq_getElem hpl⟩
    have hmemF := List.mem_of_getElem? hfirst
    have hmemL := List.mem_of_getElem? hlast
    have hfst : (rotL idx E).head? = some first := by rw [← hfirst]; exact (rotL_head hidx).symm
    have hlst : (rotL idx E).getLast? = some last := by rw [← hlast]; exact (rotL_prev hidx).symm
    have hdE : ∀ e ∈ E, DocsOK e.full := fun e he => hdocs (key e) (inv.keys.mem_iff.1 (List.mem_map_of_mem he))
    obtain ⟨hlo, hfresh⟩ := inv.last last hlst
    have hle : ∀ e ∈ E, e.pp.doc ≤ last.pp.doc := by
      intro e he
      obtain ⟨ys, hys⟩ := List.getLast?_eq_some_iff.mp hlst
      have he' : e ∈ rotL idx E := rotL_mem.2 he
      have hsort := inv.sorted
      rw [hys] at he' hsort
      rw [List.pairwise_append] at hsort
      rcases List.mem_append.mp he' with h1 | h1
      · exact hsort.2.2 e h1 last (by simp)
      · simp at h1; subst h1; exact Int.le_refl _
    have hge : ∀ e ∈ E, first.pp.doc ≤ e.pp.doc := by
      intro e he
      have he' : e ∈ rotL idx E := rotL_mem.2 he
      have hsort := inv.sorted
      cases hr : rotL idx E with
      | nil => rw [hr] at hfst; cases hfst
      | cons a r =>
        rw [hr] at hfst he' hsort
        simp at hfst; subst hfst
        rcases List.mem_cons.mp he' with rfl | h1
        · exact Int.le_refl _
        · exact (List.pairwise_cons.mp hsort).1 e h1
    have hstop : ∀ idx' (s' : PhSc ε F S), s'.more = false → doNext o pf zero n idx' s' = .ok (false, s') := by
      intro idx' s' h'
      obtain ⟨m, rfl⟩ : ∃ m, n = m + 1 := ⟨n - 1, by omega⟩
      rw [doNext, h']; rfl
    have hun : doNext o pf zero (n + 1) idx s =
        (if first.pp.doc < last.pp.doc then
          ppSkipTo o first.pp last.pp.doc >>= fun r =>
            doNext o pf zero n (nextNum idx E.length) { s with pps := (E.map (·.pp)).set idx r.2, more := r.1 }
        else
          pf (E.map (·.pp)) idx >>= fun r =>
          if zero r.1 then
            Res.ofOption r.2.1[prevNum r.2.2 r.2.1.length]? >>= fun last => ppNext o last >>= fun x =>
              doNext o pf zero n r.2.2 { s with freq := some r.1, pps := r.2.1.set (prevNum r.2.2 r.2.1.length) x.2, idx := r.2.2, more := x.1 }
          else .ok (true, { s with freq := some r.1, pps := r.2.1, idx := r.2.2, doc := first.pp.doc })) := by
      rw [doNext, if_pos hm, hs]
      simp only [List.length_map, List.getElem?_map, hfirst, hlast, Option.map_some, Res.ofOption, Res.ok_bind]
    rw [hun]
    by_cases hlt : first.pp.doc < last.pp.doc
    · rw [if_pos hlt]
      obtain ⟨st, pre, hp1, hp2, hp3, _⟩ := (inv.at_ first hmemF).passed (hdE first hmemF)
      obtain ⟨r, r1, r2⟩ := ppSkipTo_spec hl (n := last.pp.doc) hp1 (hdE first hmemF) (fun q hq => by have := hp2 q hq; omega)
      rw [r1, Res.ok_bind]
      rcases r2 with ⟨h1, h2⟩ | ⟨h1, e', h2, h3⟩
      · rw [hstop _ _ (by show r.1 = false; exact h1)]
        refine ⟨_, rfl, .inr ⟨rfl, fun x hx => ?_⟩⟩
        obtain ⟨q, hq, hqx⟩ := (inAll_key inv.keys).1 hx.1 first hmemF
        have := inv.below x hx last hmemL
        have := h2 q hq
        omega
      · rw [h2, map_pp_set]
        have hdl := docsLeft_set (o := o) (e' := e') hfirst
        have hleft := h3.left
        have hke := h3.key
        have hbel : ∀ x, Target ks M lo x → e'.pp.doc ≤ x := by
          intro x hx
          obtain ⟨q, hq, hqx⟩ := (inAll_key inv.keys).1 hx.1 first hmemF
          rw [← hqx]
          refine h3.least q hq ?_
          rw [hqx]; exact inv.below x hx last hmemL
        have inv' : DInv ks M lo o Ok view (E.set idx e') (nextNum idx E.length) := by
          refine ⟨by rw [keys_set hfirst hke]; exact inv.keys, by rw [List.length_set]; exact Nat.mod_lt _ (by omega), ?_, ?_, ?_, ?_⟩
          · intro a ha
            rcases List.mem_or_eq_of_mem_set ha with h6 | rfl
            · exact inv.at_ a h6
            · exact h3.fresh.at
          · intro x hx a ha
            rcases List.mem_or_eq_of_mem_set ha with h6 | rfl
            · exact inv.below x hx a h6
            · exact hbel x hx
          · rw [nextNum, rotL_set_first hidx, List.pairwise_append]
            refine ⟨inv.sorted.sublist (List.tail_sublist _), List.pairwise_singleton _ _, fun a ha b hb => ?_⟩
            simp at hb; subst hb
            exact Int.le_trans (hle a (rotL_mem.1 (List.mem_of_mem_tail ha))) h3.ge
          · intro z hz
            rw [nextNum, rotL_set_first hidx, List.getLast?_append] at hz
            simp at hz; subst hz
            have hge' := h3.ge
            refine ⟨by omega, fun a ha => ?_⟩
            rcases List.mem_or_eq_of_mem_set ha with h6 | rfl
            · rcases hfresh a h6 with h7 | h7
              · exact .inl (by omega)
              · exact .inr h7
            · exact .inr h3.fresh
        obtain ⟨r', k1, k2⟩ := ih (E.set idx e') (nextNum idx E.length) { s with pps := (E.set idx e').map (·.pp), more := r.1 } (by omega) h1 rfl inv'
        refine ⟨r', k1, ?_⟩
        rcases k2 with ⟨k2, d, f, E2, a1, a2, a3, a4, a5, a6, a7, a8, a9, a10, a11, a12, a13, a14⟩ | k2
        · exact .inl ⟨k2, d, f, E2, a1, a2, a3, a4, a5, a6, a7, a8, a9, a10, a11, a12, a13, by omega⟩
        · exact .inr k2
    · rw [if_neg hlt]
      have heq : ∀ e ∈ E, e.pp.doc = last.pp.doc := by
        intro e he
        have := hle e he; have := hge e he; have := hle first hmemF
        omega
      have hall : ∀ e ∈ E, Fresh Ok view last.pp.doc e := by
        intro e he
        rcases hfresh e he with h7 | h7
        · have := heq e he; omega
        · rw [heq e he] at h7; exact h7
      have hpk : Pre (E.map key) := hpf.prePerm inv.keys.symm hpre
      obtain ⟨f, E', idx', m1, m2, m3, E1, m4, m5⟩ := hpf.spec (List.ne_nil_of_mem hmemF) hidx hdE hpk hall
      rw [m1, Res.ok_bind]
      have hval : Val (ats last.pp.doc ks) f := hpf.perm (inv.keys.map _) m3
      have hkeys' : (E'.map key).Perm ks := by rw [m5.keys]; exact (m4.map key).trans inv.keys
      have hat1 : ∀ e ∈ E1, AtDoc Ok view last.pp.doc e := fun e he => (hall e (m4.mem_iff.1 he)).at
      have hat' := m5.atDoc hat1
      have hdl' : docsLeft o (E'.map (·.pp)) = docsLeft o (E.map (·.pp)) := by rw [m5.left hat1, docsLeft_perm m4]
      have hin : InAll ks last.pp.doc := by
        rw [inAll_key inv.keys]
        intro e he
        obtain ⟨_, _, _, _, _, q, hq⟩ := (hall e he).at.passed (hdE e he)
        exact ⟨q, hq⟩
      by_cases hz : zero f = true
      · simp only [hz, if_true, List.length_map, List.getElem?_map]
        have hnM : ¬ M last.pp.doc := by
          intro h; rw [(hM _ _ hval).1 h] at hz; cases hz
        have hpl' : prevNum idx' E'.length < E'.length := Nat.mod_lt _ (by omega)
        obtain ⟨last', hlast'⟩ : ∃ x, E'[prevNum idx' E'.length]? = some x := ⟨_, List.getElem?_eq_getElem hpl'⟩
        have hmemL' := List.mem_of_getElem? hlast'
        have hdL' : DocsOK last'.full := hdocs (key last') (hkeys'.mem_iff.1 (List.mem_map_of_mem hmemL'))
        rw [hlast']
        simp only [Option.map_some, Res.ofOption, Res.ok_bind]
        obtain ⟨st, pre, hp1, hp2, hp3, _⟩ := (hat' last' hmemL').passed hdL'
        obtain ⟨r, r1, r2⟩ := ppNext_spec hl hp1 hdL' hp2 hp3
        rw [r1, Res.ok_bind]
        have habove : ∀ x, Target ks M lo x → last.pp.doc + 1 ≤ x := by
          intro x hx
          have := inv.below x hx last hmemL
          have : x ≠ last.pp.doc := fun h => hnM (h ▸ hx.2.2)
          omega
        rcases r2 with ⟨h1, h2⟩ | ⟨h1, e', h2, h3⟩
        · rw [hstop _ _ (by show r.1 = false; exact h1)]
          refine ⟨_, rfl, .inr ⟨rfl, fun x hx => ?_⟩⟩
          obtain ⟨q, hq, hqx⟩ := (inAll_key hkeys').1 hx.1 last' hmemL'
          have := habove x hx
          have := h2 q hq
          omega
        · rw [h2, map_pp_set]
          have hdl := docsLeft_set (o := o) (e' := e') hlast'
          have hleft := h3.left
          have hke := h3.key
          have hge' := h3.ge
          have inv' : DInv ks M lo o Ok view (E'.set (prevNum idx' E'.length) e') idx' := by
            refine ⟨by rw [keys_set hlast' hke]; exact hkeys', by rw [List.length_set]; exact m2, ?_, ?_, ?_, ?_⟩
            · intro a ha
              rcases List.mem_or_eq_of_mem_set ha with h6 | rfl
              · have := hat' a h6; rw [this.doc]; exact this
              · exact h3.fresh.at
            · intro x hx a ha
              rcases List.mem_or_eq_of_mem_set ha with h6 | rfl
              · rw [(hat' a h6).doc]; have := habove x hx; omega
              · obtain ⟨q, hq, hqx⟩ := (inAll_key hkeys').1 hx.1 last' hmemL'
                rw [← hqx]
                refine h3.least q hq ?_
                rw [hqx]; exact habove x hx
            · rw [prevNum, rotL_set_prev m2, List.pairwise_append]
              refine ⟨?_, List.pairwise_singleton _ _, fun a ha b hb => ?_⟩
              · refine List.Pairwise.sublist (List.dropLast_sublist _) (List.Pairwise.imp_of_mem (R := fun _ _ => True) ?_ (List.pairwise_of_forall fun _ _ => trivial))
                intro a b ha hb _
                rw [(hat' a (rotL_mem.1 ha)).doc, (hat' b (rotL_mem.1 hb)).doc]; exact Int.le_refl _
              · simp at hb; subst hb
                rw [(hat' a (rotL_mem.1 ((List.dropLast_sublist _).mem ha))).doc]; omega
            · intro z hz'
              rw [prevNum, rotL_set_prev m2, List.getLast?_append] at hz'
              simp at hz'; subst hz'
              refine ⟨by omega, fun a ha => ?_⟩
              rcases List.mem_or_eq_of_mem_set ha with h6 | rfl
              · exact .inl (by rw [(hat' a h6).doc]; omega)
              · exact .inr h3.fresh
          obtain ⟨r', k1, k2⟩ := ih (E'.set (prevNum idx' E'.length) e') idx'
            { s with freq := some f, pps := (E'.set (prevNum idx' E'.length) e').map (·.pp), idx := idx', more := r.1 } (by omega) h1 rfl inv'
          refine ⟨r', k1, ?_⟩
          rcases k2 with ⟨k2, d, f, E2, a1, a2, a3, a4, a5, a6, a7, a8, a9, a10, a11, a12, a13, a14⟩ | k2
          · exact .inl ⟨k2, d, f, E2, a1, a2, a3, a4, a5, a6, a7, a8, a9, a10, a11, a12, a13, by omega⟩
          · exact .inr k2
      · simp only [hz, if_false]
        have hz' : zero f = false := by simpa using hz
        refine ⟨_, rfl, .inl ⟨rfl, last.pp.doc, f, E', ⟨hin, hlo, (hM _ _ hval).2 hz'⟩, fun x hx => inv.below x hx last hmemL, hkeys', hat', ⟨hval, hz'⟩, rfl, m2, ?_, rfl, hm, rfl, rfl, rfl, ?_⟩⟩
        · show first.pp.doc = _; exact heq first hmemF
        · show docsLeft o (E'.map (·.pp)) ≤ _; omega

end Ferret.Phrase
