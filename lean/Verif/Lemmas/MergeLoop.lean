import Verif.Lemmas.MergeTerms

/-! Lemmas about the loops over terms and fields when merging (C27). -/

namespace Ferret.Merge
open Ferret Ferret.Expand Ferret.Dict Ferret.Post Ferret.Spec Ferret.Props

/-! ### Numbers of documents -/

theorem liveBefore_succ (dead : Nat → Bool) (n : Nat) : liveBefore dead (n + 1) = liveBefore dead n + if dead n then 0 else 1 := by
  unfold liveBefore
  rw [List.range_succ, List.filter_append, List.length_append]
  cases h : dead n <;> simp [h]

theorem liveBefore_mono (dead : Nat → Bool) {a b : Nat} (h : a ≤ b) : liveBefore dead a ≤ liveBefore dead b := by
  induction b with
  | zero => rw [show a = 0 by omega]; exact Nat.le_refl _
  | succ b ih =>
    by_cases hb : a = b + 1
    · rw [hb]; exact Nat.le_refl _
    · have := ih (by omega)
      rw [liveBefore_succ]
      omega

theorem liveBefore_lt (dead : Nat → Bool) {a b : Nat} (h : a < b) (hd : dead a = false) : liveBefore dead a < liveBefore dead b := by
  have h1 := liveBefore_mono dead (show a + 1 ≤ b by omega)
  rw [liveBefore_succ, hd] at h1
  simp only [Bool.false_eq_true, if_false] at h1
  omega

theorem liveBefore_le (dead : Nat → Bool) (n : Nat) : liveBefore dead n ≤ n := by
  unfold liveBefore
  have := List.length_filter_le (fun i => !dead i) (List.range n)
  rwa [List.length_range] at this

theorem mem_renum {base : Nat} {dead : Nat → Bool} {ps : List Posting} {q : Posting} (h : q ∈ renum base dead ps) :
    ∃ p ∈ ps, dead p.doc = false ∧ q = { p with doc := base + liveBefore dead p.doc } := by
  unfold renum live at h
  obtain ⟨p, hp, rfl⟩ := List.mem_map.1 h
  obtain ⟨h1, h2⟩ := List.mem_filter.1 hp
  exact ⟨p, h1, by simpa using h2, rfl⟩

theorem renum_asc {base : Nat} {dead : Nat → Bool} {ps : List Posting} (h : ps.Pairwise fun a b => a.doc < b.doc) :
    (renum base dead ps).Pairwise fun a b => a.doc < b.doc := by
  unfold renum live
  rw [List.pairwise_map]
  refine List.Pairwise.imp_of_mem ?_ (h.filter _)
  intro a b ha _ hab
  have := liveBefore_lt dead hab (by simpa using (List.mem_filter.1 ha).2)
  dsimp only
  omega

/-- Each segment's documents come after those of the segments before it. -/
def Bases : Nat → List Src → Prop
  | _, [] => True
  | b, s :: ss => s.smi.base = b ∧ Bases (b + s.smi.docCnt) ss

/-- What is merged for a term. -/
def merged (srcs : List Src) (f : Int) (t : Term) : List Posting := srcs.flatMap fun s => s.part f t

theorem Src.OK.postings {s : Src} (h : s.OK) {f : Int} {t : Term} {ps : List Posting} (hp : postingsOf s.fields f t = some ps) :
    Postings ps ∧ ∀ p ∈ ps, p.doc < s.smi.maxDoc := by
  unfold postingsOf at hp
  simp only [Option.map_eq_some_iff, Option.bind_eq_some_iff] at hp
  obtain ⟨y, ⟨z, hz, hy⟩, rfl⟩ := hp
  obtain ⟨ii, hs⟩ := h.segment
  exact ⟨hs.postings z (List.mem_of_find?_eq_some hz) y (List.mem_of_find?_eq_some hy), h.max z (List.mem_of_find?_eq_some hz) y (List.mem_of_find?_eq_some hy)⟩

theorem Src.OK.part_bounds {s : Src} (h : s.OK) {f : Int} {t : Term} : ∀ q ∈ s.part f t, s.smi.base ≤ q.doc ∧ q.doc < s.smi.base + s.smi.docCnt := by
  intro q hq
  obtain ⟨p, hp, hd, rfl⟩ := mem_renum hq
  cases hps : postingsOf s.fields f t with
  | none => rw [hps] at hp; cases hp
  | some ps =>
    rw [hps] at hp
    have := liveBefore_lt s.dead ((h.postings hps).2 p hp) hd
    have := h.cnt
    dsimp only
    omega

theorem Src.OK.part_asc {s : Src} (h : s.OK) (f : Int) (t : Term) : (s.part f t).Pairwise fun a b => a.doc < b.doc := by
  unfold Src.part
  refine renum_asc ?_
  cases hps : postingsOf s.fields f t with
  | none => exact List.Pairwise.nil
  | some ps => exact (h.postings hps).1.asc

theorem merged_asc {f : Int} {t : Term} : ∀ {srcs : List Src} {b : Nat}, (∀ s ∈ srcs, s.OK) → Bases b srcs →
    (merged srcs f t).Pairwise (fun a b => a.doc < b.doc) ∧ ∀ q ∈ merged srcs f t, b ≤ q.doc := by
  intro srcs
  induction srcs with
  | nil => intro b _ _; exact ⟨List.Pairwise.nil, fun q hq => nomatch hq⟩
  | cons s ss ih =>
    intro b hok hb
    obtain ⟨h1, h2⟩ := hb
    obtain ⟨i1, i2⟩ := ih (fun x hx => hok x (List.mem_cons_of_mem _ hx)) h2
    have hs := hok s (List.mem_cons_self ..)
    unfold merged at i1 i2 ⊢
    rw [List.flatMap_cons]
    constructor
    · rw [List.pairwise_append]
      refine ⟨hs.part_asc f t, i1, fun x hx y hy => ?_⟩
      have := (hs.part_bounds x hx).2
      have := i2 y hy
      omega
    · intro q hq
      rcases List.mem_append.1 hq with hq | hq
      · have := (hs.part_bounds q hq).1; omega
      · have := i2 q hq; omega

theorem bases_lt : ∀ {srcs : List Src} {b : Nat}, Bases b srcs → ∀ (i j : Nat) s s', i < j → srcs[i]? = some s → srcs[j]? = some s' → s.smi.base + s.smi.docCnt ≤ s'.smi.base := by
  have low : ∀ {srcs : List Src} {b : Nat}, Bases b srcs → ∀ s ∈ srcs, b ≤ s.smi.base := by
    intro srcs
    induction srcs with
    | nil => intro b _ s hs; cases hs
    | cons s ss ih =>
      intro b hb x hx
      rcases List.mem_cons.1 hx with rfl | hx
      · exact Nat.le_of_eq hb.1.symm
      · have := ih hb.2 x hx; omega
  intro srcs
  induction srcs with
  | nil => intro b _ i j s s' _ h; cases h
  | cons x ss ih =>
    intro b hb i j s s' hij hi hj
    obtain ⟨j, rfl⟩ : ∃ j', j = j' + 1 := ⟨j - 1, by omega⟩
    cases i with
    | zero =>
      simp only [List.getElem?_cons_zero, Option.some.injEq] at hi
      subst hi
      have := low hb.2 s' (List.mem_of_getElem? (by simpa using hj))
      have := hb.1
      omega
    | succ i => exact ih hb.2 i j s s' (by omega) (by simpa using hi) (by simpa using hj)

theorem flatMap_range {α β : Type} (g : α → List β) : ∀ (l : List α), (List.range l.length).flatMap (fun i => ((l[i]?).map g).getD []) = l.flatMap g := by
  intro l
  induction l with
  | nil => rfl
  | cons a l ih =>
    rw [List.length_cons, List.range_succ_eq_map, List.flatMap_cons, List.flatMap_cons, List.flatMap_map]
    simp only [List.getElem?_cons_zero, Option.map_some, Option.getD_some, Nat.succ_eq_add_one, List.getElem?_cons_succ]
    rw [ih]

/-! ### The state -/

def baseOf (srcs : List Src) (i : Nat) : Nat := ((srcs[i]?).map fun s => s.smi.base).getD 0

/-- The terms left in segment `i` are `Ls i`, unless it is in `todo` and yet to be started; the queue has the first of each `Qs i`. -/
structure MInv (srcs : List Src) (f : Nat) (Ls Qs : Nat → List (Term × TI)) (todo : List Nat) (m : SM) : Prop where
  len : m.tes.length = srcs.length
  subs : ∀ (i : Nat) s, srcs[i]? = some s → ∃ e, m.tes[i]? = some e ∧ e.file = s.smi.files.dict.tis ∧ (i ∉ todo → MTE.SubAt s.seg e f (Ls i))
  tdes : ∀ (i : Nat) s, srcs[i]? = some s → ∃ d, m.tdes[i]? = some d ∧ TdeOK s.smi d
  queue : PQ.Inv smiLt m.q
  heads : m.q.heap.Perm (heads srcs.length (baseOf srcs) Qs)
  ii : m.tiw.indexInterval ≠ 0

theorem MInv.congr {srcs : List Src} {f : Nat} {Ls Qs Ls' Qs' : Nat → List (Term × TI)} {todo todo' : List Nat} {m : SM} (h : MInv srcs f Ls Qs todo m)
    (h1 : ∀ i, i < srcs.length → Ls i = Ls' i) (h2 : ∀ i, i < srcs.length → Qs i = Qs' i) (h3 : ∀ i, i < srcs.length → i ∉ todo' → i ∉ todo) : MInv srcs f Ls' Qs' todo' m := by
  refine ⟨h.len, fun i s hs => ?_, h.tdes, h.queue, ?_, h.ii⟩
  · have hi := (List.getElem?_eq_some_iff.1 hs).1
    obtain ⟨e, e1, e2, e3⟩ := h.subs i s hs
    exact ⟨e, e1, e2, fun hn => by rw [← h1 i hi]; exact e3 (h3 i hi hn)⟩
  · rw [← heads_same h2]
    exact h.heads

theorem pushNext_spec {srcs : List Src} {f : Nat} {Ls Qs : Nat → List (Term × TI)} {todo : List Nat} {m : SM} (h : MInv srcs f Ls Qs todo m)
    {i : Nat} {s : Src} (hs : srcs[i]? = some s) {e e' : STE} {L : List (Term × TI)} (hn : steNext s.smi.sfi.skipInterval e = .ok (e', L.head?.map (·.1)))
    (hat : MTE.SubAt s.seg e' f L) (hQ : Qs i = []) {todo' : List Nat} (htodo : ∀ j, j ∉ todo' → j = i ∨ j ∉ todo) :
    ∃ m', pushNext (srcs.map (·.smi)) i e m = .ok m' ∧ MInv srcs f (MTE.upd Ls i L) (MTE.upd Qs i L) todo' m' ∧ m'.frq = m.frq ∧ m'.prx = m.prx ∧ m'.tiw = m.tiw := by
  have hi := (List.getElem?_eq_some_iff.1 hs).1
  unfold pushNext
  rw [List.getElem?_map, hs]
  simp only [Option.map_some, Res.ofOption, Res.ok_bind]
  rw [hn, Res.ok_bind]
  dsimp only
  have hbase : s.smi.base = baseOf srcs i := by unfold baseOf; rw [hs]; rfl
  have hsplit := heads_split hi (baseOf srcs) Qs L hQ
  have hsubs : ∀ (j : Nat) s', srcs[j]? = some s' → ∃ e2, (m.tes.set i e')[j]? = some e2 ∧ e2.file = s'.smi.files.dict.tis ∧ (j ∉ todo' → MTE.SubAt s'.seg e2 f (MTE.upd Ls i L j)) := by
    intro j s' hj
    by_cases hji : j = i
    · subst hji
      rw [hs] at hj
      cases hj
      refine ⟨e', by rw [List.getElem?_set_self (by rw [h.len]; exact hi)], hat.file, fun _ => ?_⟩
      unfold MTE.upd
      rw [if_pos rfl]
      exact hat
    · rw [List.getElem?_set_ne (by omega)]
      obtain ⟨e2, a1, a2, a3⟩ := h.subs j s' hj
      refine ⟨e2, a1, a2, fun hn => ?_⟩
      unfold MTE.upd
      rw [if_neg hji]
      exact a3 ((htodo j hn).resolve_left hji)
  cases hL : L.head? with
  | none =>
    refine ⟨_, rfl, ⟨by simp [h.len], hsubs, h.tdes, h.queue, ?_, h.ii⟩, rfl, rfl, rfl⟩
    rw [hL] at hsplit
    exact h.heads.trans hsplit.symm
  | some x =>
    obtain ⟨q', b1, b2, -, b3⟩ := PQ.push_spec smiLt_weak m.q (x.1, s.smi.base, i) h.queue
    dsimp only [Option.map_some]
    rw [b1, Res.ok_bind]
    refine ⟨_, rfl, ⟨by simp [h.len], hsubs, h.tdes, b2, ?_, h.ii⟩, rfl, rfl, rfl⟩
    rw [hL] at hsplit
    simp only [Option.map_some, Option.toList_some, List.cons_append, List.nil_append] at hsplit
    rw [hbase] at b3
    exact b3.trans ((List.Perm.cons _ h.heads).trans hsplit.symm)

theorem nextAll_spec {srcs : List Src} (hok : ∀ s ∈ srcs, s.OK) {f : Nat} : ∀ (is : List Nat) {Ls Qs : Nat → List (Term × TI)} {m : SM}, MInv srcs f Ls Qs [] m →
    is.Nodup → (∀ i ∈ is, i < srcs.length ∧ Qs i = [] ∧ ∃ x L, Ls i = x :: L) → (∀ i, i < srcs.length → i ∉ is → Qs i = Ls i) →
    ∃ m', nextAll (srcs.map (·.smi)) is m = .ok m' ∧ MInv srcs f (fun i => if i ∈ is then (Ls i).tail else Ls i) (fun i => if i ∈ is then (Ls i).tail else Ls i) [] m' ∧
      m'.frq = m.frq ∧ m'.prx = m.prx ∧ m'.tiw = m.tiw := by
  intro is
  induction is with
  | nil =>
    intro Ls Qs m h _ _ hsame
    exact ⟨m, rfl, h.congr (fun i _ => by simp) (fun i hi => by rw [hsame i hi (by simp)]; simp) (fun i _ _ => by simp), rfl, rfl, rfl⟩
  | cons i is ih =>
    intro Ls Qs m h hnd hms hsame
    obtain ⟨hn1, hn2⟩ := List.nodup_cons.1 hnd
    obtain ⟨hi, hQ, x, L, hL⟩ := hms i (List.mem_cons_self ..)
    have hs : srcs[i]? = some srcs[i] := List.getElem?_eq_getElem hi
    obtain ⟨e, e1, e2, e3⟩ := h.subs i _ hs
    have hat := e3 (by simp)
    rw [hL] at hat
    obtain ⟨-, -, e', k1, k2⟩ := MTE.sub_next (s := (srcs[i]).seg) (hok _ (List.getElem_mem hi)).dict hat
    obtain ⟨m1, r1, r2, r3, r4, r5⟩ := pushNext_spec h hs k1 k2 hQ (todo' := []) (fun j _ => Or.inr (by simp))
    obtain ⟨m2, q1, q2, q3, q4, q5⟩ := ih r2 hn2
      (by
        intro j hj
        have hji : j ≠ i := fun hh => hn1 (hh ▸ hj)
        unfold MTE.upd
        rw [if_neg hji, if_neg hji]
        exact hms j (List.mem_cons_of_mem _ hj))
      (by
        intro j hj hnj
        unfold MTE.upd
        by_cases hji : j = i
        · rw [if_pos hji, if_pos hji]
        · rw [if_neg hji, if_neg hji]
          exact hsame j hj (by simp [hji, hnj]))
    refine ⟨m2, ?_, ?_, q3.trans r3, q4.trans r4, q5.trans r5⟩
    · unfold nextAll
      rw [e1]
      simp only [Res.ofOption, Res.ok_bind]
      rw [r1, Res.ok_bind]
      exact q1
    · have hfun : ∀ j, j < srcs.length → (if j ∈ is then (MTE.upd Ls i L j).tail else MTE.upd Ls i L j) = if j ∈ i :: is then (Ls j).tail else Ls j := by
        intro j _
        unfold MTE.upd
        by_cases hji : j = i
        · subst hji
          rw [if_neg hn1, if_pos rfl, if_pos (by simp), hL]
          rfl
        · simp [hji]
      exact q2.congr hfun hfun (fun _ _ h => h)

theorem sub_agrees {s : MTE.Seg} {e : STE} {n : Nat} {x : Term × TI} {L : List (Term × TI)} (h : MTE.SubAt s e n (x :: L)) :
    Agrees s.sub.sfi.skipInterval e.ti x.2 ∧ x ∈ entriesOf s.fields n := by
  obtain ⟨hf, h1⟩ := h.live (by omega)
  rcases h1 with ⟨k, a1, hk, hL⟩ | ⟨-, hL⟩
  · rw [List.drop_eq_getElem_cons hk] at hL
    obtain ⟨rfl, rfl⟩ := List.cons.inj hL
    have hti := a1.ti
    rw [entryAt_succ _ _ _ _ (List.getElem?_eq_getElem hk)] at hti
    exact ⟨hti, List.getElem_mem hk⟩
  · cases hL

theorem sub_size {s : MTE.Seg} {e : STE} {n : Nat} {L : List (Term × TI)} (h : MTE.SubAt s e n L) : L.length ≤ (e.size - e.pos).toNat := by
  obtain ⟨hf, h1⟩ := h.live (by omega)
  rcases h1 with ⟨k, a1, hk, hL⟩ | ⟨-, hL⟩
  · rw [hL, List.length_drop, a1.pos, a1.size]
    omega
  · rw [hL]; exact Nat.zero_le _

theorem adv_eq {t : Term} {x : Term × TI} {L : List (Term × TI)} (h : x.1 = t) : MTE.adv t (x :: L) = L := by
  show (if _ then _ else _) = _
  rw [if_pos h]

/-- One round: the least term is merged, and the segments that have it go on. -/
theorem round_spec {si : Nat} (hsi : 0 < si) {srcs : List Src} (hok : ∀ s ∈ srcs, s.OK) (hb : Bases 0 srcs) {f : Nat} {Ls : Nat → List (Term × TI)} {m : SM}
    (h : MInv srcs f Ls Ls [] m) (hrest : ∀ i, i < srcs.length → ∀ s, srcs[i]? = some s → ∃ k, Ls i = (entriesOf s.dict f).drop k ∧ ∀ x ∈ (entriesOf s.dict f).take k, ∀ y ∈ heads srcs.length (baseOf srcs) Ls, x.1 < y.1) (hne : m.q.heap ≠ []) :
    ∃ t m', round si (srcs.map (·.smi)) m = .ok m' ∧ MInv srcs f (fun i => MTE.adv t (Ls i)) (fun i => MTE.adv t (Ls i)) [] m' ∧
      (∃ y ∈ heads srcs.length (baseOf srcs) Ls, y.1 = t) ∧ (∀ y ∈ heads srcs.length (baseOf srcs) Ls, ¬ y.1 < t) ∧
      Adds si m m' (if merged srcs f t = [] then [] else [(t, merged srcs f t)]) := by
  obtain ⟨top, q', p1, p2, -, p3, p4, p5⟩ := PQ.pop_spec smiLt_weak m.q h.queue hne
  have hmem : top ∈ heads srcs.length (baseOf srcs) Ls := (h.heads.mem_iff).1 (p3.mem_iff.1 (List.mem_cons_self ..))
  have hpos : srcs.length ≠ 0 := by have := (mem_heads.1 hmem).1; omega
  have hge : ∀ y ∈ heads srcs.length (baseOf srcs) Ls, ¬ y.1 < top.1 := by
    intro y hy
    have h1 := p5 y ((h.heads.mem_iff).2 hy)
    rw [smiLt_eq] at h1
    exact (MTE.tewLt_false.1 h1).1
  obtain ⟨q2, ms, r1, r2, r3, r4, r5⟩ := popLoop_spec (n := srcs.length) (base := baseOf srcs) (term := top.1) (m.q.heap.length + 1) m.q [] Ls h.queue h.heads (by omega)
    ⟨List.nodup_nil, (fun i hi => nomatch hi), List.Pairwise.nil⟩ (fun i hi => nomatch hi) (fun j hj => nomatch hj) hge
  have hfirst : popLoop srcs.length top.1 (q'.heap.length + 1) q' [top.2.2] = .ok (q2, ms) := by
    rw [← r1]
    conv => rhs; unfold popLoop
    rw [p4]
    dsimp only
    rw [if_pos (strcmp_eq.2 rfl), p1, Res.ok_bind]
    simp only [Res.ofOption, Res.ok_bind]
    rw [if_neg (by simp only [List.length_nil]; omega), List.nil_append]
    have := p3.length_eq
    simp only [List.length_cons] at this
    rw [this]
  -- the segments that have the term
  have hms : ∀ i, i ∈ ms ↔ i < srcs.length ∧ ∃ x L, Ls i = x :: L ∧ x.1 = top.1 := by
    intro i
    rw [r5 i]
    simp
  have hat : ∀ i ∈ ms, ∃ s e x, srcs[i]? = some s ∧ m.tes[i]? = some e ∧ x ∈ entriesOf s.dict f ∧ x.1 = top.1 ∧ Agrees s.smi.sfi.skipInterval e.ti x.2 := by
    intro i hi
    obtain ⟨hi1, x, L, hL, hx⟩ := (hms i).1 hi
    obtain ⟨e, e1, e2, e3⟩ := h.subs i _ (List.getElem?_eq_getElem hi1)
    have := e3 (by simp)
    rw [hL] at this
    obtain ⟨a1, a2⟩ := sub_agrees this
    exact ⟨srcs[i], e, x, List.getElem?_eq_getElem hi1, e1, a2, hx, a1⟩
  have hmerged : merged srcs f top.1 = ms.flatMap fun i => ((srcs[i]?).map fun s => s.part f top.1).getD [] := by
    unfold merged
    rw [← flatMap_range]
    symm
    refine taken_order r3 _ ?_ ?_
    · intro i hi hni
      rw [List.getElem?_eq_getElem hi, Option.map_some, Option.getD_some]
      refine (hok _ (List.getElem_mem hi)).noEntry ?_
      intro x hx hxt
      obtain ⟨k, k1, k2⟩ := hrest i hi _ (List.getElem?_eq_getElem hi)
      have hasc := ((hok _ (List.getElem_mem hi)).dict f).1
      rw [← List.take_append_drop k (entriesOf srcs[i].dict f)] at hx
      rcases List.mem_append.1 hx with hx | hx
      · have := k2 x hx top hmem
        rw [hxt] at this
        exact List.lt_irrefl _ this
      · have hd : Asc ((entriesOf srcs[i].dict f).drop k) := hasc.sublist (List.drop_sublist _ _)
        cases hL : Ls i with
        | nil => rw [← k1, hL] at hx; cases hx
        | cons y L =>
          have hy : (y.1, baseOf srcs i, i) ∈ heads srcs.length (baseOf srcs) Ls := mem_heads.2 ⟨hi, rfl, y, L, hL, rfl⟩
          rw [← k1, hL] at hx hd
          rcases List.mem_cons.1 hx with rfl | hx
          · exact hni ((hms i).2 ⟨hi, x, L, hL, hxt⟩)
          · have := (List.pairwise_cons.1 hd).1 x hx
            rw [hxt] at this
            exact hge _ hy this
    · intro i j hij hj hg
      have hi : i < srcs.length := by omega
      rw [List.getElem?_eq_getElem hi, Option.map_some, Option.getD_some] at hg
      have h1 := bases_lt hb i j _ _ hij (List.getElem?_eq_getElem hi) (List.getElem?_eq_getElem hj)
      unfold baseOf
      rw [List.getElem?_eq_getElem hi, List.getElem?_eq_getElem hj]
      simp only [Option.map_some, Option.getD_some]
      obtain ⟨q, hq⟩ := List.exists_mem_of_ne_nil _ hg
      have := (hok _ (List.getElem_mem hi)).part_bounds q hq
      omega
  have hch : Chain 0 (merged srcs f top.1) := chain_of_asc (merged_asc hok hb).1 fun p _ => by omega
  obtain ⟨m1, a1, a2, a3, a4, a5⟩ := mergeTerm_spec hsi hok { m with q := q2 } h.ii f top.1 ms hat h.tdes _ hmerged hch
  have hm1 : MInv srcs f Ls (fun i => if i ∈ ms then [] else Ls i) [] m1 := by
    refine ⟨by rw [a2]; exact h.len, by rw [a2]; exact h.subs, a4, by rw [a3]; exact r2, by rw [a3]; exact r4, ?_⟩
    obtain ⟨es, -, -, b3⟩ := a5
    rw [b3]
    exact h.ii
  obtain ⟨m2, b1, b2, b3, b4, b5⟩ := nextAll_spec hok ms.reverse hm1 ((List.reverse_perm ms).nodup_iff.2 r3.nodup)
    (by
      intro i hi
      rw [List.mem_reverse] at hi
      obtain ⟨hi1, x, L, hL, -⟩ := (hms i).1 hi
      exact ⟨hi1, by simp [hi], x, L, hL⟩)
    (by
      intro i _ hni
      rw [List.mem_reverse] at hni
      simp [hni])
  refine ⟨top.1, m2, ?_, ?_, ⟨top, hmem, rfl⟩, hge, ?_⟩
  · unfold round
    rw [p1, Res.ok_bind]
    simp only [Res.ofOption, Res.ok_bind, List.length_map]
    rw [if_neg hpos, hfirst, Res.ok_bind]
    dsimp only
    rw [a1, Res.ok_bind]
    exact b1
  · have hfun : ∀ i, i < srcs.length → (if i ∈ ms.reverse then (Ls i).tail else Ls i) = MTE.adv top.1 (Ls i) := by
      intro i hi
      by_cases him : i ∈ ms
      · obtain ⟨-, x, L, hL, hx⟩ := (hms i).1 him
        rw [if_pos (List.mem_reverse.2 him), hL, adv_eq hx]
        rfl
      · rw [if_neg (fun hh => him (List.mem_reverse.1 hh))]
        cases hL : Ls i with
        | nil => rfl
        | cons x L =>
          show _ = if _ then _ else _
          rw [if_neg]
          intro hx
          exact him ((hms i).2 ⟨hi, x, L, hL, hx⟩)
    exact b2.congr hfun hfun (fun _ _ h => h)
  · exact a5.congr rfl rfl rfl b3 b4 b5

/-! ### The terms of a field -/

def total (n : Nat) (Ls : Nat → List (Term × TI)) : Nat := ((List.range n).map fun i => (Ls i).length).sum

theorem sum_le_range {α : Type} (g : α → Nat) : ∀ (l : List α) (h : Nat → Nat), (∀ (i : Nat) a, l[i]? = some a → h i ≤ g a) → ((List.range l.length).map h).sum ≤ (l.map g).sum := by
  intro l
  induction l with
  | nil => intro h _; exact Nat.le_refl _
  | cons a l ih =>
    intro h hle
    rw [List.length_cons, List.range_succ_eq_map, List.map_cons, List.map_map, List.sum_cons, List.map_cons, List.sum_cons]
    have h1 := hle 0 a rfl
    have h2 := ih (h ∘ Nat.succ) fun i b hb => hle (i + 1) b (by simpa using hb)
    omega

theorem sum_le_of_le {g h : Nat → Nat} : ∀ (l : List Nat), (∀ i ∈ l, g i ≤ h i) → (l.map g).sum ≤ (l.map h).sum := by
  intro l
  induction l with
  | nil => intro _; exact Nat.le_refl _
  | cons a l ih =>
    intro hle
    have := hle a (List.mem_cons_self ..)
    have := ih fun i hi => hle i (List.mem_cons_of_mem _ hi)
    simp only [List.map_cons, List.sum_cons]
    omega

theorem sum_lt_of_lt {g h : Nat → Nat} : ∀ (l : List Nat), (∀ i ∈ l, g i ≤ h i) → (∃ i ∈ l, g i < h i) → (l.map g).sum < (l.map h).sum := by
  intro l
  induction l with
  | nil => rintro _ ⟨i, hi, -⟩; cases hi
  | cons a l ih =>
    rintro hle ⟨i, hi, hlt⟩
    have h1 := hle a (List.mem_cons_self ..)
    have h2 := sum_le_of_le l fun i hi => hle i (List.mem_cons_of_mem _ hi)
    simp only [List.map_cons, List.sum_cons]
    rcases List.mem_cons.1 hi with rfl | hi
    · omega
    · have := ih (fun i hi => hle i (List.mem_cons_of_mem _ hi)) ⟨i, hi, hlt⟩
      omega

theorem adv_ne {t : Term} {x : Term × TI} {L : List (Term × TI)} (h : x.1 ≠ t) : MTE.adv t (x :: L) = x :: L := by
  show (if _ then _ else _) = _
  rw [if_neg h]

/-- What is left of the segments: the terms before are before all terms that are left. -/
def Rest (srcs : List Src) (f : Nat) (Ls : Nat → List (Term × TI)) : Prop :=
  ∀ i, i < srcs.length → ∀ s, srcs[i]? = some s → ∃ k, Ls i = (entriesOf s.dict f).drop k ∧ ∀ x ∈ (entriesOf s.dict f).take k, ∀ y ∈ heads srcs.length (baseOf srcs) Ls, x.1 < y.1

theorem Rest.asc {srcs : List Src} (hok : ∀ s ∈ srcs, s.OK) {f : Nat} {Ls : Nat → List (Term × TI)} (h : Rest srcs f Ls) {i : Nat} (hi : i < srcs.length) : Asc (Ls i) := by
  obtain ⟨k, k1, -⟩ := h i hi _ (List.getElem?_eq_getElem hi)
  rw [k1]
  exact ((hok _ (List.getElem_mem hi)).dict f).1.sublist (List.drop_sublist _ _)

/-- After the least term all terms left are greater. -/
theorem heads_adv {srcs : List Src} (hok : ∀ s ∈ srcs, s.OK) {f : Nat} {Ls : Nat → List (Term × TI)} (h : Rest srcs f Ls) {t : Term}
    (hge : ∀ y ∈ heads srcs.length (baseOf srcs) Ls, ¬ y.1 < t) : ∀ i, i < srcs.length → ∀ y ∈ MTE.adv t (Ls i), t < y.1 := by
  intro i hi y hy
  have hasc := h.asc hok hi
  cases hL : Ls i with
  | nil => rw [hL] at hy; cases hy
  | cons x L =>
    rw [hL] at hy hasc
    have hx : ¬ x.1 < t := hge (x.1, baseOf srcs i, i) (mem_heads.2 ⟨hi, rfl, x, L, hL, rfl⟩)
    obtain ⟨a1, -⟩ := List.pairwise_cons.1 hasc
    by_cases hxt : x.1 = t
    · rw [adv_eq hxt] at hy
      rw [← hxt]
      exact a1 y hy
    · have hlt : t < x.1 := Classical.byContradiction fun hn => hxt (MTE.lt_tri hx hn)
      rw [show MTE.adv t (x :: L) = x :: L by show (if _ then _ else _) = _; rw [if_neg hxt]] at hy
      rcases List.mem_cons.1 hy with rfl | hy
      · exact hlt
      · exact List.lt_trans hlt (a1 y hy)

theorem Rest.adv {srcs : List Src} (hok : ∀ s ∈ srcs, s.OK) {f : Nat} {Ls : Nat → List (Term × TI)} (h : Rest srcs f Ls) {t : Term}
    (hin : ∃ y ∈ heads srcs.length (baseOf srcs) Ls, y.1 = t) (hge : ∀ y ∈ heads srcs.length (baseOf srcs) Ls, ¬ y.1 < t) : Rest srcs f fun i => MTE.adv t (Ls i) := by
  have hgt := heads_adv hok h hge
  have hgt' : ∀ y ∈ heads srcs.length (baseOf srcs) (fun i => MTE.adv t (Ls i)), t < y.1 := by
    intro y hy
    obtain ⟨y1, -, x, L, y3, y4⟩ := mem_heads.1 hy
    rw [← y4]
    exact hgt _ y1 x (by rw [y3]; exact List.mem_cons_self ..)
  obtain ⟨y0, hy0, hyt⟩ := hin
  intro i hi s hs
  obtain ⟨k, k1, k2⟩ := h i hi s hs
  have hold : ∀ x ∈ (entriesOf s.dict f).take k, x.1 < t := fun x hx => hyt ▸ k2 x hx y0 hy0
  show ∃ k, MTE.adv t (Ls i) = _ ∧ _
  cases hL : Ls i with
  | nil => exact ⟨k, by rw [← k1, hL]; rfl, fun x hx y hy => List.lt_trans (hold x hx) (hgt' y hy)⟩
  | cons x L =>
    by_cases hxt : x.1 = t
    · rw [adv_eq hxt]
      have hk : k < (entriesOf s.dict f).length := by
        rcases Nat.lt_or_ge k (entriesOf s.dict f).length with hlt | hle
        · exact hlt
        · rw [List.drop_eq_nil_of_le hle, hL] at k1; cases k1
      rw [hL, List.drop_eq_getElem_cons hk] at k1
      obtain ⟨rfl, rfl⟩ := List.cons.inj k1
      refine ⟨k + 1, rfl, fun z hz y hy => ?_⟩
      rw [List.take_add_one, List.getElem?_eq_getElem hk] at hz
      rcases List.mem_append.1 hz with hz | hz
      · exact List.lt_trans (hold z hz) (hgt' y hy)
      · simp only [Option.toList_some, List.mem_singleton] at hz
        rw [hz, hxt]
        exact hgt' y hy
    · rw [show MTE.adv t (x :: L) = x :: L by show (if _ then _ else _) = _; rw [if_neg hxt]]
      exact ⟨k, by rw [← k1, hL], fun x hx y hy => List.lt_trans (hold x hx) (hgt' y hy)⟩

theorem termLoop_spec {si : Nat} (hsi : 0 < si) {srcs : List Src} (hok : ∀ s ∈ srcs, s.OK) (hb : Bases 0 srcs) {f : Nat} : ∀ (fuel : Nat) {Ls : Nat → List (Term × TI)} {m : SM},
    MInv srcs f Ls Ls [] m → Rest srcs f Ls → total srcs.length Ls < fuel →
    ∃ m' ts Ls', termLoop si (srcs.map (·.smi)) fuel m = .ok m' ∧ MInv srcs f Ls' (fun _ => []) [] m' ∧ Adds si m m' ts ∧ ts.Pairwise (fun a b => a.1 < b.1) ∧
      (∀ x ∈ ts, x.2 = merged srcs f x.1 ∧ x.2 ≠ [] ∧ ∃ i, i < srcs.length ∧ ∃ y ∈ Ls i, y.1 = x.1) ∧
      ∀ i, i < srcs.length → ∀ y ∈ Ls i, merged srcs f y.1 ≠ [] → (y.1, merged srcs f y.1) ∈ ts := by
  intro fuel
  induction fuel with
  | zero => intro Ls m _ _ h; omega
  | succ fuel ih =>
    intro Ls m h hrest hf
    unfold termLoop
    by_cases hne : m.q.heap = []
    · rw [if_neg (by rw [hne]; decide)]
      have hh := h.heads
      rw [hne] at hh
      have he := List.nil_perm.1 hh
      have hLs : ∀ i, i < srcs.length → Ls i = [] := by
        intro i hi
        cases hL : Ls i with
        | nil => rfl
        | cons x L =>
          have : (x.1, baseOf srcs i, i) ∈ heads srcs.length (baseOf srcs) Ls := mem_heads.2 ⟨hi, rfl, x, L, hL, rfl⟩
          rw [he] at this
          cases this
      refine ⟨m, [], Ls, rfl, h.congr (fun _ _ => rfl) hLs (fun _ _ h => h), Adds.nil si m, List.Pairwise.nil, (fun x hx => nomatch hx), ?_⟩
      intro i hi y hy
      rw [hLs i hi] at hy
      cases hy
    · rw [if_pos (List.length_pos_iff.2 hne)]
      obtain ⟨t, m1, r1, r2, r3, r4, r5⟩ := round_spec hsi hok hb h hrest hne
      rw [r1, Res.ok_bind]
      have hrest' := hrest.adv hok r3 r4
      have hgt := heads_adv hok hrest r4
      obtain ⟨y0, hy0, hyt⟩ := r3
      obtain ⟨i1, -, x0, L0, i3, i4⟩ := mem_heads.1 hy0
      have hlen : ∀ i, (MTE.adv t (Ls i)).length ≤ (Ls i).length := by
        intro i
        cases Ls i with
        | nil => exact Nat.le_refl _
        | cons x L =>
          show (if _ then _ else _ : List (Term × TI)).length ≤ _
          split
          · exact Nat.le_succ _
          · exact Nat.le_refl _
      have hdec : total srcs.length (fun i => MTE.adv t (Ls i)) < total srcs.length Ls := by
        refine sum_lt_of_lt _ (fun i _ => hlen i) ⟨y0.2.2, List.mem_range.2 i1, ?_⟩
        show (MTE.adv t (Ls y0.2.2)).length < _
        rw [i3, adv_eq (i4.trans hyt)]
        exact Nat.lt_succ_self _
      obtain ⟨m2, ts, Ls', q1, q2, q3, q4, q5, q6⟩ := ih r2 hrest' (by omega)
      have hafter : ∀ x ∈ ts, t < x.1 := by
        intro x hx
        obtain ⟨-, -, i, hi, y, hy, hyx⟩ := q5 x hx
        rw [← hyx]
        exact hgt i hi y hy
      refine ⟨m2, _, Ls', q1, q2, r5.trans q3, ?_, ?_, ?_⟩
      · by_cases hm : merged srcs f t = []
        · rw [if_pos hm, List.nil_append]; exact q4
        · rw [if_neg hm]
          exact List.pairwise_cons.2 ⟨hafter, q4⟩
      · intro x hx
        rcases List.mem_append.1 hx with hx | hx
        · by_cases hm : merged srcs f t = []
          · rw [if_pos hm] at hx; cases hx
          · rw [if_neg hm, List.mem_singleton] at hx
            subst hx
            exact ⟨rfl, hm, y0.2.2, i1, x0, by rw [i3]; exact List.mem_cons_self .., i4.trans hyt⟩
        · obtain ⟨a1, a2, i, hi, y, hy, hyx⟩ := q5 x hx
          refine ⟨a1, a2, i, hi, y, ?_, hyx⟩
          cases hL : Ls i with
          | nil => rw [hL] at hy; cases hy
          | cons z L =>
            rw [hL] at hy
            by_cases hz : z.1 = t
            · rw [adv_eq hz] at hy
              exact List.mem_cons_of_mem _ hy
            · rw [adv_ne hz] at hy
              exact hy
      · intro i hi y hy hm
        by_cases hyt' : y.1 = t
        · rw [hyt'] at hm ⊢
          rw [if_neg hm]
          exact List.mem_append_left _ (List.mem_cons_self ..)
        · refine List.mem_append_right _ (q6 i hi y ?_ hm)
          cases hL : Ls i with
          | nil => rw [hL] at hy; cases hy
          | cons z L =>
            rw [hL] at hy
            by_cases hz : z.1 = t
            · rw [adv_eq hz]
              rcases List.mem_cons.1 hy with rfl | hy
              · exact absurd hz hyt'
              · exact hy
            · rw [adv_ne hz]
              exact hy

/-! ### The fields -/

def entriesAt (srcs : List Src) (f : Nat) (i : Nat) : List (Term × TI) := ((srcs[i]?).map fun s => entriesOf s.dict f).getD []

theorem entriesAt_eq {srcs : List Src} {f i : Nat} {s : Src} (h : srcs[i]? = some s) : entriesAt srcs f i = entriesOf s.dict f := by
  unfold entriesAt
  rw [h]
  rfl

theorem startAll_spec {srcs : List Src} (hok : ∀ s ∈ srcs, s.OK) {f : Nat} : ∀ (is : List Nat) {m : SM},
    is.Nodup → (∀ i ∈ is, i < srcs.length) → MInv srcs f (entriesAt srcs f) (fun i => if i ∈ is then [] else entriesAt srcs f i) is m →
    ∃ m', startAll (srcs.map (·.smi)) f is m = .ok m' ∧ MInv srcs f (entriesAt srcs f) (entriesAt srcs f) [] m' ∧ m'.frq = m.frq ∧ m'.prx = m.prx ∧ m'.tiw = m.tiw := by
  intro is
  induction is with
  | nil =>
    intro m _ _ h
    exact ⟨m, rfl, h.congr (fun _ _ => rfl) (fun i _ => by simp) (fun _ _ h => h), rfl, rfl, rfl⟩
  | cons i is ih =>
    intro m hnd hlt h
    obtain ⟨hn1, hn2⟩ := List.nodup_cons.1 hnd
    have hi := hlt i (List.mem_cons_self ..)
    have hs : srcs[i]? = some srcs[i] := List.getElem?_eq_getElem hi
    obtain ⟨e, e1, e2, -⟩ := h.subs i _ hs
    have hd : MTE.Seg.OK (srcs[i]).seg := (hok _ (List.getElem_mem hi)).dict
    obtain ⟨a1, a2⟩ := MTE.setField_at (s := (srcs[i]).seg) hd e2 (f : Int)
    obtain ⟨e', k1, k2⟩ := MTE.sub_step hd (by omega) a2 a1
    rw [List.drop_zero] at k1 k2
    obtain ⟨m1, r1, r2, r3, r4, r5⟩ := pushNext_spec h hs k1 k2 (by simp) (todo' := is)
      (fun j hj => by
        by_cases hji : j = i
        · exact Or.inl hji
        · exact Or.inr (by simp [hji, hj]))
    have hent : entriesAt srcs f i = entriesOf (srcs[i]).seg.fields f := entriesAt_eq hs
    obtain ⟨m2, q1, q2, q3, q4, q5⟩ := ih hn2 (fun j hj => hlt j (List.mem_cons_of_mem _ hj))
      (r2.congr (Ls' := entriesAt srcs f) (Qs' := fun i => if i ∈ is then [] else entriesAt srcs f i) (todo' := is)
        (fun j _ => by
          unfold MTE.upd
          by_cases hji : j = i
          · rw [if_pos hji, hji, hent]
          · rw [if_neg hji])
        (fun j _ => by
          unfold MTE.upd
          by_cases hji : j = i
          · rw [if_pos hji, hji, if_neg hn1, hent]
          · rw [if_neg hji]
            simp [hji])
        (fun _ _ h => h))
    refine ⟨m2, ?_, q2, q3.trans r3, q4.trans r4, q5.trans r5⟩
    unfold startAll
    rw [List.getElem?_map, hs, e1]
    simp only [Option.map_some, Res.ofOption, Res.ok_bind]
    have r1' : pushNext (srcs.map (·.smi)) i (steSetField (srcs[i]).smi.sfi e f) m = .ok m1 := r1
    rw [r1', Res.ok_bind]
    exact q1

/-- A field of the merged segment. -/
structure FieldMerged (srcs : List Src) (f : Nat) (ts : List (Term × List Posting)) : Prop where
  asc : ts.Pairwise fun a b => a.1 < b.1
  eq : ∀ x ∈ ts, x.2 = merged srcs f x.1 ∧ x.2 ≠ [] ∧ ∃ s ∈ srcs, ∃ y ∈ entriesOf s.dict f, y.1 = x.1
  all : ∀ t, merged srcs f t ≠ [] → (t, merged srcs f t) ∈ ts

theorem fieldLoop_spec {si : Nat} (hsi : 0 < si) {srcs : List Src} (hok : ∀ s ∈ srcs, s.OK) (hb : Bases 0 srcs) : ∀ (fs : List Nat) {f0 : Nat} {Ls : Nat → List (Term × TI)} {todo : List Nat} {m : SM},
    MInv srcs f0 Ls (fun _ => []) todo m →
    ∃ m' F es, fieldLoop si (srcs.map (·.smi)) fs m = .ok m' ∧ F.map (·.1) = fs ∧ (∀ x ∈ F, FieldMerged srcs x.1 x.2) ∧
      flushFields si m.frq m.prx F = (m'.frq, m'.prx, es) ∧ addFields m.tiw es = .ok m'.tiw := by
  intro fs
  induction fs with
  | nil => intro f0 Ls todo m _; exact ⟨m, [], [], rfl, rfl, (fun x hx => nomatch hx), rfl, rfl⟩
  | cons f fs ih =>
    intro f0 Ls todo m h
    have h0 : MInv srcs f (entriesAt srcs f) (fun i => if i ∈ List.range srcs.length then [] else entriesAt srcs f i) (List.range srcs.length) { m with tiw := tiwStartField m.tiw f } := by
      refine ⟨h.len, fun i s hs => ?_, h.tdes, h.queue, ?_, h.ii⟩
      · obtain ⟨e, e1, e2, -⟩ := h.subs i s hs
        exact ⟨e, e1, e2, fun hn => absurd (List.mem_range.2 (List.getElem?_eq_some_iff.1 hs).1) hn⟩
      · rw [heads_same (Qs' := fun _ => []) (fun i hi => if_pos (List.mem_range.2 hi))]
        exact h.heads
    obtain ⟨m1, r1, r2, r3, r4, r5⟩ := startAll_spec hok (List.range srcs.length) List.nodup_range (fun i hi => List.mem_range.1 hi) h0
    have hrest : Rest srcs f (entriesAt srcs f) := by
      intro i _ s hs
      exact ⟨0, by rw [entriesAt_eq hs, List.drop_zero], fun x hx => by rw [List.take_zero] at hx; cases hx⟩
    have hfuel : total srcs.length (entriesAt srcs f) < (m1.tes.map fun e => (e.size - e.pos).toNat).sum + 1 := by
      unfold total
      rw [← r2.len]
      refine Nat.lt_succ_of_le (sum_le_range _ _ _ fun i e he => ?_)
      have hi : i < srcs.length := by rw [← r2.len]; exact (List.getElem?_eq_some_iff.1 he).1
      obtain ⟨e', a1, -, a3⟩ := r2.subs i _ (List.getElem?_eq_getElem hi)
      rw [he] at a1
      cases a1
      exact sub_size (a3 (by simp))
    obtain ⟨m2, ts, Ls', q1, q2, q3, q4, q5, q6⟩ := termLoop_spec hsi hok hb _ r2 hrest hfuel
    obtain ⟨es, b1, b2, b3⟩ := q3
    obtain ⟨m3, F, es', c1, c2, c3, c4, c5⟩ := ih q2
    refine ⟨m3, (f, ts) :: F, (f, es) :: es', ?_, by rw [List.map_cons, c2], ?_, ?_, ?_⟩
    · unfold fieldLoop
      rw [List.length_map, r1, Res.ok_bind, q1, Res.ok_bind]
      exact c1
    · intro x hx
      rcases List.mem_cons.1 hx with rfl | hx
      · refine ⟨q4, fun x hx => ?_, fun t ht => ?_⟩
        · obtain ⟨d1, d2, i, hi, y, hy, hyx⟩ := q5 x hx
          rw [entriesAt_eq (List.getElem?_eq_getElem hi)] at hy
          exact ⟨d1, d2, _, List.getElem_mem hi, y, hy, hyx⟩
        · obtain ⟨p, hp⟩ := List.exists_mem_of_ne_nil _ ht
          unfold merged at hp
          obtain ⟨s, hs, hps⟩ := List.mem_flatMap.1 hp
          obtain ⟨i, hi⟩ := List.getElem?_of_mem hs
          have hex : ∃ y ∈ entriesOf s.dict f, y.1 = t := Classical.byContradiction fun hn => by
            rw [(hok s hs).noEntry (f := f) (t := t) fun x hx hxt => hn ⟨x, hx, hxt⟩] at hps
            cases hps
          obtain ⟨y, hy, rfl⟩ := hex
          exact q6 i (List.getElem?_eq_some_iff.1 hi).1 y (by rw [entriesAt_eq hi]; exact hy) ht
      · exact c3 x hx
    · rw [r3, r4] at b1
      have b1' : flushTerms si m.frq m.prx ts = (m2.frq, m2.prx, es) := b1
      simp only [flushFields, b1', c4]
    · rw [r5] at b2
      simp only [addFields]
      have b2' : addTerms (tiwStartField m.tiw f) es = .ok m2.tiw := b2
      rw [b2', Res.ok_bind]
      exact c5

/-- Merging the terms writes the files that flushing the merged segment would. -/
theorem mergeTerms_spec {ii si : Nat} (hii : 0 < ii) (hsi : 0 < si) {srcs : List Src} (hok : ∀ s ∈ srcs, s.OK) (hb : Bases 0 srcs) (cnt : Nat) :
    ∃ F, F.map (·.1) = List.range cnt ∧ (∀ x ∈ F, FieldMerged srcs x.1 x.2) ∧ mergeTerms ii si cnt (srcs.map (·.smi)) = flush ii si F := by
  have h0 : MInv srcs 0 (fun _ => []) (fun _ => []) (List.range srcs.length)
      ⟨(srcs.map (·.smi)).map fun s => steNew s.files.dict.tis, (srcs.map (·.smi)).map fun s => stdeNew true s.sfi.skipInterval s.del s.files.frq s.files.prx,
        PQ.new (srcs.map (·.smi)).length, [], [], tiwOpen ii si⟩ := by
    refine ⟨by simp, fun i s hs => ?_, fun i s hs => ?_, PQ.inv_new _ _, ?_, ?_⟩
    · refine ⟨steNew s.smi.files.dict.tis, ?_, rfl, fun hn => absurd (List.mem_range.2 (List.getElem?_eq_some_iff.1 hs).1) hn⟩
      simp [hs]
    · refine ⟨stdeNew true s.smi.sfi.skipInterval s.smi.del s.smi.files.frq s.smi.files.prx, by simp only [List.getElem?_map, hs, Option.map_some], rfl, rfl, rfl, rfl, rfl⟩
    · have : heads srcs.length (baseOf srcs) (fun _ => []) = [] := by
        unfold heads
        rw [List.filterMap_eq_nil_iff]
        intro _ _
        rfl
      rw [this]
      exact List.Perm.refl _
    · show ii ≠ 0
      omega
  obtain ⟨m', F, es, r1, r2, r3, r4, r5⟩ := fieldLoop_spec hsi hok hb (List.range cnt) h0
  refine ⟨F, r2, r3, ?_⟩
  unfold mergeTerms flush
  rw [r1, Res.ok_bind, if_neg (by omega)]
  dsimp only at r4 r5 ⊢
  rw [r4]
  dsimp only
  unfold writeDict
  rw [r5]
  rfl

end Ferret.Merge
