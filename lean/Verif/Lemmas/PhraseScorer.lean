import Verif.Lemmas.PhraseNext

/-! Phrase scorers keep the scorer contract (`Scorer.Good`). -/

namespace Ferret.Phrase

open Ferret.Post (Posting)
open Ferret.Scorer (rotL rotL_head rotL_prev rotL_set_first rotL_set_prev rotL_mem perm_map_lift Arith View Ops Moved NextAfter Good)

variable {ε F S : Type} {o : TdeOps ε} {Ok : ε → Prop} {view : ε → Tde}

theorem downTo_spec (n : Int) {f : PhPos ε → Res (Bool × PhPos ε)} : ∀ E : List (Ent ε), (∀ e ∈ E, ∃ r, f e.pp = .ok r ∧ Outcome o Ok view n e r) →
    ∃ r, downTo f (E.map (·.pp)) = .ok r ∧
      ((r.1 = false ∧ ∃ e ∈ E, ∀ q ∈ e.full, (q.doc : Int) < n) ∨
       (r.1 = true ∧ ∃ E' : List (Ent ε), r.2 = E'.map (·.pp) ∧ E'.map key = E.map key ∧ docsLeft o (E'.map (·.pp)) + E.length ≤ docsLeft o (E.map (·.pp)) ∧
          ∀ e' ∈ E', ∃ e ∈ E, Came o Ok view n e e')) := by
  intro E
  induction E with
  | nil => intro _; exact ⟨(true, []), rfl, .inr ⟨rfl, [], rfl, rfl, by simp, (fun _ h => nomatch h)⟩⟩
  | cons e E ih =>
    intro h
    obtain ⟨r, r1, r2⟩ := ih (fun a ha => h a (List.mem_cons_of_mem _ ha))
    rw [List.map_cons, downTo, r1, Res.ok_bind]
    rcases r2 with ⟨h1, a, ha, h2⟩ | ⟨h1, E', h2, h3, h4, h5⟩
    · rw [h1]
      exact ⟨_, rfl, .inl ⟨rfl, a, List.mem_cons_of_mem _ ha, h2⟩⟩
    · rw [h1]
      obtain ⟨x, x1, x2⟩ := h e (List.mem_cons_self ..)
      simp only [if_true, x1, Res.ok_bind]
      rcases x2 with ⟨y1, y2⟩ | ⟨y1, e', y2, y3⟩
      · exact ⟨_, rfl, .inl ⟨y1, e, List.mem_cons_self .., y2⟩⟩
      · refine ⟨_, rfl, .inr ⟨y1, e' :: E', by rw [h2, y2]; rfl, by rw [List.map_cons, List.map_cons, h3, y3.key], ?_, ?_⟩⟩
        · rw [← List.map_cons (f := fun x : Ent ε => x.pp)]
          rw [docsLeft_eq, docsLeft_eq] at h4 ⊢
          have := y3.left
          simp only [List.map_cons, List.sum_cons, List.length_cons]
          omega
        · intro a ha
          rcases List.mem_cons.1 ha with rfl | ha
          · exact ⟨e, List.mem_cons_self .., y3⟩
          · obtain ⟨b, hb, hc⟩ := h5 a ha
            exact ⟨b, List.mem_cons_of_mem _ hb, hc⟩

section
variable (o : TdeOps ε) (Ok : ε → Prop) (view : ε → Tde) (Pre : List Key → Prop) (Val : List (Int × List Int) → F → Prop) (zero : F → Bool)

/-- A phrase that matches where `M` holds, and only where `N` holds. -/
structure IsPh (ks : List Key) (M N : Int → Prop) : Prop where
  ne : ks ≠ []
  docsOK : ∀ k ∈ ks, DocsOK k.2
  pre : Pre ks
  val : ∀ d f, Val (ats d ks) f → (M d → zero f = false) ∧ (zero f = false → N d)

/-- The scorer before its first document. -/
def New (E : List (Ent ε)) (s : PhSc ε F S) (lo : Int) : Prop := lo = -1 ∧ s.firstTime = true ∧ ∀ e ∈ E, ∃ st, Passed Ok view e st []

/-- The scorer on document `lo`. -/
def On (ks : List Key) (E : List (Ent ε)) (s : PhSc ε F S) (lo : Int) : Prop :=
  0 ≤ lo ∧ (∀ e ∈ E, AtDoc Ok view lo e) ∧ s.idx < E.length ∧ s.doc = lo ∧ ∃ f, s.freq = some f ∧ Val (ats lo ks) f ∧ zero f = false

/-- What a call leads to. -/
def PhMoved (ks : List Key) (M N : Int → Prop) (lo : Int) (s : PhSc ε F S) (r : Bool × PhSc ε F S) : Prop :=
  (r.1 = true ∧ ∃ (d : Int) (E : List (Ent ε)), Target ks N lo d ∧ (∀ x, Target ks M lo x → d ≤ x) ∧ (E.map key).Perm ks ∧ r.2.pps = E.map (·.pp) ∧ r.2.more = true ∧
    (0 ≤ d → On Ok view Val zero ks E r.2 d) ∧ r.2.tfw = s.tfw ∧ r.2.norm = s.norm ∧ docsLeft o r.2.pps < docsLeft o s.pps) ∨
  (r.1 = false ∧ ∀ x, ¬ Target ks M lo x)

end

variable {Pre : List Key → Prop} {Val : List (Int × List Int) → F → Prop} {zero : F → Bool}

theorem phFound_moved {ks : List Key} {M N : Int → Prop} {lo : Int} {s0 s : PhSc ε F S} {bound : Nat} {r : Bool × PhSc ε F S} (hr : r.1 = true)
    (h : PhFound ks M lo N o Ok view Val zero s r.2 bound) (hb : bound < docsLeft o s0.pps) (ht : s.tfw = s0.tfw) (hn : s.norm = s0.norm) :
    PhMoved o Ok view Val zero ks M N lo s0 r := by
  obtain ⟨d, f, E, h1, h2, h3, h4, h5, h6, h7, h8, h9, h10, h11, h12, h13, h14⟩ := h
  exact .inl ⟨hr, d, E, h1, h2, h3, h6, h10, fun h0 => ⟨h0, h4, h7, h8, f, h9, h5.1, h5.2⟩, h12.trans ht, h13.trans hn, by omega⟩

/-- After every phrase position has been moved to its first document from `n` on. -/
theorem phInit_spec (hl : Lawful o Ok view) {qs : QSort ε} (hq : Sorts qs) {pf : Freq ε F} (hpf : FreqOK o Ok view pf Pre Val)
    {ks : List Key} {M N : Int → Prop} {n : Int} {f : PhPos ε → Res (Bool × PhPos ε)} {E : List (Ent ε)} {s : PhSc ε F S}
    (hv : IsPh Pre Val zero ks M N) (hk : (E.map key).Perm ks) (hs : s.pps = E.map (·.pp))
    (hf : ∀ e ∈ E, ∃ r, f e.pp = .ok r ∧ Outcome o Ok view n e r) (b : PhSc ε F S → PhSc ε F S)
    (hb : ∀ s, (b s).pps = s.pps ∧ (b s).more = s.more ∧ (b s).idx = s.idx ∧ (b s).tfw = s.tfw ∧ (b s).norm = s.norm) :
    ∃ r, (phInit qs f s >>= fun s => phDoNext o pf zero (b s)) = .ok r ∧ PhMoved o Ok view Val zero ks M N (n - 1) s r := by
  have hE : E ≠ [] := by
    intro h
    rw [h] at hk
    exact hv.ne (hk.symm.eq_nil)
  have hpps : s.pps.isEmpty = false := by
    rw [hs]
    cases E with
    | nil => exact absurd rfl hE
    | cons e E => rfl
  obtain ⟨r, r1, r2⟩ := downTo_spec (o := o) (Ok := Ok) (view := view) n E hf
  rw [phInit, hs, r1, Res.ok_bind, ← hs, hpps]
  simp only [Bool.false_eq_true, if_false]
  rcases r2 with ⟨h1, e, he, h2⟩ | ⟨h1, E', h2, h3, h4, h5⟩
  · rw [h1]
    simp only [Bool.false_eq_true, if_false, Res.ok_bind]
    refine ⟨(false, b { s with pps := r.2, more := false }), ?_, .inr ⟨rfl, fun x hx => ?_⟩⟩
    · rw [phDoNext, doNext, (hb _).2.1]; rfl
    · obtain ⟨q, hq, hqx⟩ := (inAll_key hk).1 hx.1 e he
      have := h2 q hq
      have := hx.2.1
      omega
  · rw [h1, h2]
    simp only [if_true, Res.ok_bind]
    obtain ⟨E2, p1, p2, p3⟩ := sort_lift hq ppLe_total ppLe_trans E'
    rw [p2]
    have hk2 : (E2.map key).Perm ks := (p1.map key).trans (by rw [h3]; exact hk)
    have hcame : ∀ e' ∈ E2, ∃ e ∈ E, Came o Ok view n e e' := fun e' he' => h5 e' (p1.mem_iff.1 he')
    have hlen : 0 < E2.length := by
      have : E2.length = E.length := by rw [p1.length_eq, ← List.length_map (f := key), h3, List.length_map]
      rw [this]; exact List.length_pos_iff.2 hE
    have inv : DInv ks M (n - 1) o Ok view E2 0 := by
      refine ⟨hk2, hlen, ?_, ?_, ?_, ?_⟩
      · intro e he
        obtain ⟨_, _, hc⟩ := hcame e he
        exact hc.fresh.at
      · intro x hx e he
        obtain ⟨a, ha, hc⟩ := hcame e he
        obtain ⟨q, hq, hqx⟩ := (inAll_key hk).1 hx.1 a ha
        have := hx.2.1
        rw [← hqx]
        exact hc.least q hq (by omega)
      · simp only [rotL, List.drop_zero, List.take_zero, List.append_nil]
        refine p3.imp (fun h => ?_)
        simp only [ppLe, decide_eq_true_eq] at h
        omega
      · simp only [rotL, List.drop_zero, List.take_zero, List.append_nil]
        intro z hz
        obtain ⟨_, _, hc⟩ := hcame z (List.mem_of_getLast? hz)
        have := hc.ge
        refine ⟨by omega, fun e he => ?_⟩
        obtain ⟨_, _, hc⟩ := hcame e he
        exact .inr hc.fresh
    have hdl := docsLeft_perm (o := o) p1
    obtain ⟨c1, c2, c3, c4, c5⟩ := hb { s with pps := E2.map (·.pp), idx := 0, more := true }
    obtain ⟨r', k1, k2⟩ := doNext_spec hl hpf hv.docsOK hv.pre hv.val (n - 1) (docsLeft o (E2.map (·.pp)) + 2) E2 0 (b { s with pps := E2.map (·.pp), idx := 0, more := true })
      (Nat.le_refl _) c2 c1 inv
    refine ⟨r', ?_, ?_⟩
    · rw [phDoNext, c1, c3]; exact k1
    · rcases k2 with ⟨k2, k3⟩ | ⟨k2, k3⟩
      · refine phFound_moved k2 k3 ?_ c4 c5
        rw [hs, hdl]
        have : 0 < E.length := List.length_pos_iff.2 hE
        omega
      · exact .inr ⟨k2, k3⟩

theorem phNext_spec (hl : Lawful o Ok view) {qs : QSort ε} (hq : Sorts qs) {pf : Freq ε F} (hpf : FreqOK o Ok view pf Pre Val)
    {ks : List Key} {M N : Int → Prop} {lo : Int} {E : List (Ent ε)} {s : PhSc ε F S}
    (hv : IsPh Pre Val zero ks M N) (hk : (E.map key).Perm ks) (hs : s.pps = E.map (·.pp)) (hm : s.more = true) (h : New Ok view E s lo ∨ On Ok view Val zero ks E s lo) :
    ∃ r, phNext o qs pf zero s = .ok r ∧ PhMoved o Ok view Val zero ks M N lo s r := by
  have hdE : ∀ e ∈ E, DocsOK e.full := fun e he => hv.docsOK (key e) (hk.mem_iff.1 (List.mem_map_of_mem he))
  have hall : ∀ e ∈ E, ∃ r, ppNext o e.pp = .ok r ∧ Outcome o Ok view (lo + 1) e r := by
    intro e he
    rcases h with h | h
    · obtain ⟨st, hp⟩ := h.2.2 e he
      exact ppNext_spec hl hp (hdE e he) (fun q hq => nomatch hq) (fun q hq => by have := h.1; omega)
    · obtain ⟨st, pre, p1, p2, p3, _⟩ := (h.2.1 e he).passed (hdE e he)
      exact ppNext_spec hl p1 (hdE e he) p2 p3
  rw [phNext]
  by_cases hft : s.firstTime = true
  · rw [if_pos hft]
    have := phInit_spec hl hq hpf hv hk hs hall (fun s => { s with firstTime := false }) (fun s => ⟨rfl, rfl, rfl, rfl, rfl⟩)
    rwa [show lo + 1 - 1 = lo by omega] at this
  · rw [if_neg hft, if_pos hm]
    rcases h with h | h
    · exact absurd h.2.1 hft
    · obtain ⟨h0, h1, h2, h3, f, h4, h5, h6⟩ := h
      have hpl : prevNum s.idx E.length < E.length := Nat.mod_lt _ (by omega)
      obtain ⟨last, hlast⟩ : ∃ x, E[prevNum s.idx E.length]? = some x := ⟨_, List.getElem?_eq_getElem hpl⟩
      have hmemL := List.mem_of_getElem? hlast
      rw [hs]
      simp only [List.length_map, List.getElem?_map, hlast, Option.map_some, Res.ofOption, Res.ok_bind]
      obtain ⟨r, r1, r2⟩ := hall last hmemL
      rw [r1, Res.ok_bind]
      rcases r2 with ⟨y1, y2⟩ | ⟨y1, e', y2, y3⟩
      · refine ⟨_, by rw [phDoNext, doNext, y1]; rfl, .inr ⟨rfl, fun x hx => ?_⟩⟩
        obtain ⟨q, hq, hqx⟩ := (inAll_key hk).1 hx.1 last hmemL
        have := y2 q hq
        have := hx.2.1
        omega
      · rw [y2, map_pp_set, y1]
        have hke := y3.key
        have hge := y3.ge
        have hleft := y3.left
        have hdl := docsLeft_set (o := o) (e' := e') hlast
        have inv : DInv ks M lo o Ok view (E.set (prevNum s.idx E.length) e') s.idx := by
          refine ⟨by rw [keys_set hlast hke]; exact hk, by rw [List.length_set]; exact h2, ?_, ?_, ?_, ?_⟩
          · intro a ha
            rcases List.mem_or_eq_of_mem_set ha with h6 | rfl
            · have := h1 a h6; rw [this.doc]; exact this
            · exact y3.fresh.at
          · intro x hx a ha
            have := hx.2.1
            rcases List.mem_or_eq_of_mem_set ha with h6 | rfl
            · rw [(h1 a h6).doc]; omega
            · obtain ⟨q, hq, hqx⟩ := (inAll_key hk).1 hx.1 last hmemL
              rw [← hqx]
              exact y3.least q hq (by omega)
          · rw [prevNum, rotL_set_prev h2, List.pairwise_append]
            refine ⟨?_, List.pairwise_singleton _ _, fun a ha b hb => ?_⟩
            · refine List.Pairwise.sublist (List.dropLast_sublist _) (List.Pairwise.imp_of_mem (R := fun _ _ => True) ?_ (List.pairwise_of_forall fun _ _ => trivial))
              intro a b ha hb _
              rw [(h1 a (rotL_mem.1 ha)).doc, (h1 b (rotL_mem.1 hb)).doc]; exact Int.le_refl _
            · simp at hb; subst hb
              rw [(h1 a (rotL_mem.1 ((List.dropLast_sublist _).mem ha))).doc]; omega
          · intro z hz'
            rw [prevNum, rotL_set_prev h2, List.getLast?_append] at hz'
            simp at hz'; subst hz'
            refine ⟨by omega, fun a ha => ?_⟩
            rcases List.mem_or_eq_of_mem_set ha with h6 | rfl
            · exact .inl (by rw [(h1 a h6).doc]; omega)
            · exact .inr y3.fresh
        obtain ⟨r', k1, k2⟩ := doNext_spec hl hpf hv.docsOK hv.pre hv.val lo _ (E.set (prevNum s.idx E.length) e') s.idx
          { s with pps := (E.set (prevNum s.idx E.length) e').map (·.pp), more := true } (Nat.le_refl _) rfl rfl inv
        refine ⟨r', k1, ?_⟩
        rcases k2 with ⟨k2, k3⟩ | ⟨k2, k3⟩
        · refine phFound_moved k2 k3 ?_ rfl rfl
          rw [hs]
          omega
        · exact .inr ⟨k2, k3⟩

theorem phSkipTo_spec (hl : Lawful o Ok view) {qs : QSort ε} (hq : Sorts qs) {pf : Freq ε F} (hpf : FreqOK o Ok view pf Pre Val)
    {ks : List Key} {M N : Int → Prop} {lo n : Int} {E : List (Ent ε)} {s : PhSc ε F S}
    (hv : IsPh Pre Val zero ks M N) (hk : (E.map key).Perm ks) (hs : s.pps = E.map (·.pp)) (h : New Ok view E s lo ∨ On Ok view Val zero ks E s lo) (hn : lo < n) :
    ∃ r, phSkipTo o qs pf zero s n = .ok r ∧ PhMoved o Ok view Val zero ks M N (n - 1) s r := by
  have hdE : ∀ e ∈ E, DocsOK e.full := fun e he => hv.docsOK (key e) (hk.mem_iff.1 (List.mem_map_of_mem he))
  have hall : ∀ e ∈ E, ∃ r, ppSkipTo o e.pp n = .ok r ∧ Outcome o Ok view n e r := by
    intro e he
    rcases h with h | h
    · obtain ⟨st, hp⟩ := h.2.2 e he
      exact ppSkipTo_spec hl hp (hdE e he) (fun q hq => nomatch hq)
    · obtain ⟨st, pre, p1, p2, p3, _⟩ := (h.2.1 e he).passed (hdE e he)
      exact ppSkipTo_spec hl p1 (hdE e he) (fun q hq => by have := p2 q hq; omega)
  exact phInit_spec hl hq hpf hv hk hs hall id (fun s => ⟨rfl, rfl, rfl, rfl, rfl⟩)

section
variable (P : Prop) (A : Arith S) (o : TdeOps ε) (Ok : ε → Prop) (view : ε → Tde) (Pre : List Key → Prop) (Val : List (Int × List Int) → F → Prop) (zero : F → Bool)

/-- `v` is the view of a phrase: the documents in all lists for which `M` holds. -/
structure IsPhrase (tfw : F → S) (norm : Int → S) (ks : List Key) (M : Int → Prop) (v : View S) : Prop where
  ne : ks ≠ []
  docsOK : ∀ k ∈ ks, DocsOK k.2
  pre : Pre ks
  val : ∀ d f, Val (ats d ks) f → (zero f = false ↔ M d)
  docs : ∀ d, v.docs d = true ↔ InAll ks d ∧ M d
  sc : P → ∀ d f, Val (ats d ks) f → zero f = false → v.sc d = A.mul (tfw f) (norm d)
  cnt : ∀ d, v.cnt d = 0

/-- Contract relation of a phrase scorer. -/
def phR (s : PhSc ε F S) (v : View S) (lo : Int) (_b : Bool) : Prop :=
  ∃ (ks : List Key) (M : Int → Prop) (E : List (Ent ε)), IsPhrase P A Pre Val zero s.tfw s.norm ks M v ∧ (E.map key).Perm ks ∧ s.pps = E.map (·.pp) ∧ s.more = true ∧
    (New Ok view E s lo ∨ On Ok view Val zero ks E s lo)

end

variable {P : Prop} {A : Arith S}

theorem IsPhrase.isPh {tfw : F → S} {norm : Int → S} {ks : List Key} {M : Int → Prop} {v : View S} (h : IsPhrase P A Pre Val zero tfw norm ks M v) : IsPh Pre Val zero ks M M :=
  ⟨h.ne, h.docsOK, h.pre, fun d f hf => ⟨(h.val d f hf).2, (h.val d f hf).1⟩⟩

theorem IsPhrase.moved {ks : List Key} {M : Int → Prop} {v : View S} {lo : Int} {s : PhSc ε F S} {qs : QSort ε} {pf : Freq ε F} {r : Bool × PhSc ε F S}
    (hv : IsPhrase P A Pre Val zero s.tfw s.norm ks M v) (h : PhMoved o Ok view Val zero ks M M lo s r) :
    Moved (phraseOps A o qs pf zero) (phR P A Ok view Pre Val zero) v lo s r := by
  rcases h with ⟨h0, d, E, h1, h2, h3, h4, h5, h6, h7, h8, h9⟩ | ⟨h0, h1⟩
  · have hd : 0 ≤ d := by
      obtain ⟨k, hk⟩ := List.exists_mem_of_ne_nil _ hv.ne
      obtain ⟨q, _, hq⟩ := h1.1 k hk
      omega
    refine .inl ⟨h0, d, ⟨(hv.docs d).2 ⟨h1.1, h1.2.2⟩, h1.2.1, fun x hx hlx => ?_⟩, ⟨ks, M, E, by rw [h7, h8]; exact hv, h3, h4, h5, .inr (h6 hd)⟩, h9⟩
    obtain ⟨a, b⟩ := (hv.docs x).1 hx
    exact h2 x ⟨a, hlx, b⟩
  · refine .inr ⟨h0, fun x hx => ?_⟩
    obtain ⟨a, b⟩ := (hv.docs x).1 hx
    apply Classical.byContradiction
    intro hn
    exact h1 x ⟨a, by omega, b⟩

theorem good_phrase (hl : Lawful o Ok view) {qs : QSort ε} (hq : Sorts qs) {pf : Freq ε F} (hpf : FreqOK o Ok view pf Pre Val) :
    Good P (phraseOps A o qs pf zero) (phR P A Ok view Pre Val zero) where
  lo := by
    rintro s v lo b ⟨ks, M, E, hv, hk, hs, hm, h | h⟩
    · exact ⟨by rw [h.1]; exact Int.le_refl _, fun h0 => by have := h.1; omega⟩
    · obtain ⟨h0, h1, h2, h3, f, h4, h5, h6⟩ := h
      refine ⟨by omega, fun _ => (hv.docs lo).2 ⟨?_, (hv.val lo f h5).1 h6⟩⟩
      rw [inAll_key hk]
      intro e he
      obtain ⟨_, _, _, _, _, q, hq⟩ := (h1 e he).passed (hv.docsOK (key e) (hk.mem_iff.1 (List.mem_map_of_mem he)))
      exact ⟨q, hq⟩
  nonneg := by
    rintro s v lo b x ⟨ks, M, E, hv, hk, hs, hm, h⟩ hx
    obtain ⟨a, _⟩ := (hv.docs x).1 hx
    obtain ⟨k, hkm⟩ := List.exists_mem_of_ne_nil _ hv.ne
    obtain ⟨q, _, hqx⟩ := a k hkm
    omega
  next := by
    rintro s v lo b ⟨ks, M, E, hv, hk, hs, hm, h⟩
    obtain ⟨r, r1, r2⟩ := phNext_spec hl hq hpf hv.isPh hk hs hm h
    exact ⟨r, r1, hv.moved r2⟩
  skip := by
    rintro s v lo b n ⟨ks, M, E, hv, hk, hs, hm, h⟩ _ hn
    obtain ⟨r, r1, r2⟩ := phSkipTo_spec hl hq hpf hv.isPh hk hs h hn
    exact ⟨r, r1, hv.moved r2⟩
  doc := by
    rintro s v lo b ⟨ks, M, E, hv, hk, hs, hm, h | h⟩ h0
    · have := h.1; omega
    · exact h.2.2.2.1
  score := by
    rintro s v lo ⟨ks, M, E, hv, hk, hs, hm, h⟩ h0
    rcases h with h | h
    · have := h.1; omega
    · have hon := h
      obtain ⟨_, h1, h2, h3, f, h4, h5, h6⟩ := h
      refine ⟨A.mul (s.tfw f) (s.norm lo), s, ?_, fun hP => (hv.sc hP lo f h5 h6).symm, ⟨ks, M, E, hv, hk, hs, hm, .inr hon⟩, Nat.le_refl _⟩
      show phScore A s = _
      rw [phScore, h4, hv.cnt, h3]; rfl

end Ferret.Phrase
