import Verif.Lemmas.QDrivePhrase

/-!
The query parser reads every tree of the query language as what it means.
-/

namespace Ferret.QP
open Ferret.Spec

theorem QTame.part {a m b : List QTok} (h : QTame (a ++ m ++ b)) : QTame m :=
  ⟨fun w hw => h.short w (by rcases hw with hw | hw <;> simp [hw]),
   fun x y e => h.bar (a ++ x) (y ++ b) (by rw [e]; simp),
   fun x w y e => h.slop (a ++ x) w (y ++ b) (by rw [e]; simp)⟩

theorem QOrdered.part {io : QWord → QWord → Bool} {lo : Char → Char} {a m b : List QTok}
    (h : QOrdered io lo (a ++ m ++ b)) : QOrdered io lo m :=
  fun x o u v y e ho => h (a ++ x) o u v (y ++ b) (by rw [e]; simp) ho

/-- What is asked of what is written. -/
structure Good (cfg : Cfg) (qs : List QTok) : Prop where
  tame : QTame qs
  ord : QOrdered cfg.inOrder cfg.lower qs

theorem Good.part {cfg : Cfg} {m : List QTok} (a b : List QTok) (h : Good cfg (a ++ m ++ b)) : Good cfg m :=
  ⟨QTame.part h.tame, QOrdered.part h.ord⟩

theorem Good.left {cfg : Cfg} {m b : List QTok} (h : Good cfg (m ++ b)) : Good cfg m := Good.part [] b h

theorem Good.right {cfg : Cfg} {a m : List QTok} (h : Good cfg (a ++ m)) : Good cfg m :=
  Good.part a [] (by simpa using h)

/-! ### What things start with -/

/-- What a query may start with. -/
def starts : List Nat := [3, 4, 13, 16, 18, 19, 20, 21, 24]

theorem exp_head {e : QExp} {ts rest : List LexTok} (hg : QTame e.written) (hfine : ∀ t ∈ ts, Fine t)
    (hts : ts.map LexTok.spec = e.written) : translate (headTok (ts ++ rest)) ∈ starts ∧
      (e.startsWord = false → translate (headTok (ts ++ rest)) ≠ 3) := by
  have sym : ∀ {c : Char} {qs : List QTok}, ts.map LexTok.spec = .sym c :: qs →
      translate (headTok (ts ++ rest)) = translate (.ch c) := by
    intro c qs h
    obtain ⟨t, ts', rfl, h1, -⟩ := spec_cons h
    simp only [List.cons_append, headTok]
    rw [(spec_sym (hfine t (by simp)) h1).1]
  have word : ∀ {w : QWord} {qs : List QTok}, ts.map LexTok.spec = .word w :: qs →
      translate (headTok (ts ++ rest)) = 3 := by
    intro w qs h
    have hw := hg.short w (Or.inl (by rw [← hts, h]; simp))
    obtain ⟨t, ts', rfl, h1, -⟩ := spec_cons h
    simp only [List.cons_append, headTok]
    rw [(spec_word (hfine t (by simp)) h1 hw).1]
    rfl
  have wild : ∀ {w : QWord} {qs : List QTok}, ts.map LexTok.spec = .wild w :: qs →
      translate (headTok (ts ++ rest)) = 4 := by
    intro w qs h
    have hw := hg.short w (Or.inr (by rw [← hts, h]; simp))
    obtain ⟨t, ts', rfl, h1, -⟩ := spec_cons h
    simp only [List.cons_append, headTok]
    rw [(spec_wild (hfine t (by simp)) h1 hw).1]
    rfl
  match e with
  | .leaf (.word w) => rw [word hts]; exact ⟨by decide, (fun h => by cases h)⟩
  | .leaf (.fuzzy w s) => rw [word hts]; exact ⟨by decide, (fun h => by cases h)⟩
  | .leaf (.wild w) => rw [wild hts]; exact ⟨by decide, fun _ => by decide⟩
  | .leaf (.phrase f ss sl) =>
    have hts' := hts
    simp only [QExp.written, QLeaf.written, List.append_assoc, List.cons_append, List.nil_append] at hts'
    rw [sym hts']; exact ⟨by decide, fun _ => by decide⟩
  | .leaf (.noPhrase s) => rw [sym hts]; exact ⟨by decide, fun _ => by decide⟩
  | .leaf (.between a b true i) => rw [sym hts]; exact ⟨by decide, fun _ => by decide⟩
  | .leaf (.between a b false i) => rw [sym hts]; exact ⟨by decide, fun _ => by decide⟩
  | .leaf (.below a i true) => rw [sym hts]; exact ⟨by decide, fun _ => by decide⟩
  | .leaf (.below a true false) => rw [sym hts]; exact ⟨by decide, fun _ => by decide⟩
  | .leaf (.below a false false) => rw [sym hts]; exact ⟨by decide, fun _ => by decide⟩
  | .leaf (.above a true true) => rw [sym hts]; exact ⟨by decide, fun _ => by decide⟩
  | .leaf (.above a false true) => rw [sym hts]; exact ⟨by decide, fun _ => by decide⟩
  | .leaf (.above a true false) => rw [sym hts]; exact ⟨by decide, fun _ => by decide⟩
  | .leaf (.above a false false) => rw [sym hts]; exact ⟨by decide, fun _ => by decide⟩
  | .nothing => rw [sym hts]; exact ⟨by decide, fun _ => by decide⟩
  | .parens cs =>
    have hts' := hts
    simp only [QExp.written, List.append_assoc, List.cons_append, List.nil_append] at hts'
    rw [sym hts']; exact ⟨by decide, fun _ => by decide⟩
  | .within f fs e =>
    have hts' := hts
    simp only [QExp.written, List.append_assoc, List.cons_append, List.nil_append] at hts'
    rw [word hts']; exact ⟨by decide, (fun h => by cases h)⟩
  | .everywhere e =>
    have hts' := hts
    simp only [QExp.written, List.cons_append, List.nil_append] at hts'
    rw [sym hts']; exact ⟨by decide, fun _ => by decide⟩

theorem clause_head {c : QClause} {ts rest : List LexTok} (hg : QTame c.written) (hfine : ∀ t ∈ ts, Fine t)
    (hts : ts.map LexTok.spec = c.written) : translate (headTok (ts ++ rest)) ∈ 8 :: 9 :: starts ∧
      (c.startsWord = false → translate (headTok (ts ++ rest)) ≠ 3) := by
  match c with
  | .mk .none e b =>
    simp only [QClause.written, QSign.written, List.nil_append] at hts
    obtain ⟨t1, t2, rfl, h1, h2⟩ := spec_append hts
    have := exp_head (e := e) (rest := t2 ++ rest) (QTame.part (a := []) (b := writtenBoost b) hg)
      (fun t h => hfine t (by simp [h])) h1
    rw [List.append_assoc]
    exact ⟨List.mem_cons_of_mem _ (List.mem_cons_of_mem _ this.1), this.2⟩
  | .mk .req e b =>
    simp only [QClause.written, QSign.written, List.cons_append, List.nil_append] at hts
    obtain ⟨t1, t2, rfl, h1, h2⟩ := spec_cons hts
    simp only [List.cons_append, headTok]
    rw [(spec_key h1).2.2.1 rfl]
    exact ⟨by decide, fun _ => by decide⟩
  | .mk .not e b =>
    simp only [QClause.written, QSign.written, List.cons_append, List.nil_append] at hts
    obtain ⟨t1, t2, rfl, h1, h2⟩ := spec_cons hts
    simp only [List.cons_append, headTok]
    rw [(spec_key h1).2.2.2 rfl]
    exact ⟨by decide, fun _ => by decide⟩

/-! ### The states -/

theorem starts_follow : ∀ k ∈ 8 :: 9 :: starts, k ∈ follows ∧ k ≠ 12 := by decide

def g30 (s : Nat) : Nat := if s = 3 then 24 else if s = 4 then 25 else 15
def g29 (s : Nat) : Nat := if s = 40 then 63 else if s = 41 then 64 else if s = 13 ∨ s = 27 then 42 else 14
def g28 (s : Nat) : Nat := if s = 0 then 13 else 27

theorem base8_facts : ∀ s ∈ base8, s ∈ base10 ∧ g31 s = 16 ∧ goto s 30 = some (g30 s) := by decide +kernel
theorem base6_facts : ∀ s ∈ base6, s ∈ base8 ∧ g30 s = 15 ∧ goto s 29 = some (g29 s) ∧ shiftTo s 9 = some 4 ∧
    shiftTo s 8 = some 3 := by decide +kernel
theorem base2_facts : ∀ s ∈ [0, 5], s ∈ base6 ∧ g29 s = 14 ∧ goto s 28 = some (g28 s) ∧ g28 s ∈ base6 ∧
    g29 (g28 s) = 42 ∧ shiftTo (g28 s) 7 = some 41 ∧ shiftTo (g28 s) 6 = some 40 := by decide +kernel
theorem rule11_at : ∀ k ∈ follows, k ≠ 12 → ruleAt 16 k = some 11 := by decide +kernel

section
variable {cfg : Cfg} {qlen : Nat} {p : PS} {F : List (List Fld)} {res : Option Qry} {n : Nat}
  {ts rest : List LexTok} {s0 : Nat} {v0 v1 : Val} {st : List (Nat × Val)}

/-- A boost, if there is one. -/
theorem run_boost {b : Option QWord} {q : Option Qry} (hsh : ∀ w, b = some w → w.length ≤ 253)
    (hfol : translate (headTok rest) ∈ follows ∧ translate (headTok rest) ≠ 12) (hfine : ∀ t ∈ ts, Fine t)
    (hts : ts.map LexTok.spec = writtenBoost b) (hbase : s0 ∈ base8)
    (a : At cfg qlen p ((16, .q q) :: (s0, v0) :: st) F res n (ts ++ rest)) (hroom : st.length + 7 < 10000) :
    Go cfg qlen p ((g30 s0, .q (q.map (boosted b))) :: (s0, v0) :: st) F res (n + calls ts) rest := by
  cases b with
  | none =>
    obtain rfl := spec_nil hts
    have e : q.map (boosted none) = q := by cases q <;> rfl
    rw [e]
    exact Go.cast (a.redAt (r := 11) (rule11_at _ hfol.1 hfol.2) [(16, _)] rfl rfl rfl (by decide)
      (base8_facts s0 hbase).2.2 (fun p' e1 e2 _ => by rw [← keep e1 e2]; rfl) (by omega)) (by simp)
  | some w =>
    obtain ⟨t0, ts0, rfl, hs0, hts⟩ := spec_cons hts
    obtain ⟨t1, ts0, rfl, hs1, hts⟩ := spec_cons hts
    obtain rfl := spec_nil hts
    obtain ⟨hk0, hc0, hv0⟩ := spec_sym (hfine t0 (by simp)) hs0
    obtain ⟨hk1, hc1, hv1⟩ := spec_word (hfine t1 (by simp)) hs1 (hsh w rfl)
    obtain ⟨p0, r0, a0, -⟩ := a.shift (y := 43) (by rw [hk0]; decide +kernel) (by simp only [List.length_cons]; omega)
    obtain ⟨p1, r1, a1, c1⟩ := a0.shift (y := 65) (by rw [hk1]; decide +kernel) (by simp only [List.length_cons]; omega)
    rw [hc1, hv1] at a1
    rw [hc1] at c1
    obtain ⟨p', r', a', -⟩ := a1.red (r := 12) (by decide +kernel) c1 [(65, _), (43, _), (16, _)] rfl rfl rfl
      (by decide) (base8_facts s0 hbase).2.2
      (fun p' e1 e2 e3 => by rw [← keep e1 e2]; exact act12 (read_ok (by omega))) (by omega)
    have e : q.map (Qry.boost w) = q.map (boosted (some w)) := by cases q <;> rfl
    rw [e] at a'
    exact Go.cast ⟨p', r0.trans (r1.trans r'), a'⟩ (by simp [hc0, hc1])

/-- Further names of fields. -/
theorem run_fields : ∀ (fs : List QWord) (f : QWord) (gs : List QWord) (p : PS) (n : Nat) (ts : List LexTok) (v : Val),
    (∀ w ∈ fs, w.length ≤ 253) → (∀ t ∈ ts, Fine t) →
    ts.map LexTok.spec = fs.flatMap (fun g => [.sym '|', .word g]) →
    At cfg qlen p ((20, v) :: (s0, v0) :: st) ((lang cfg).fields (f :: gs) :: F) res n (ts ++ rest) →
    s0 ∈ base10 → st.length + 7 < 10000 →
    ∃ v', Go cfg qlen p ((20, v') :: (s0, v0) :: st) ((lang cfg).fields (f :: (gs ++ fs)) :: F) res (n + calls ts) rest
  | [], f, gs, p, n, ts, v, _, _, hts, a, _, _ => by
    obtain rfl := spec_nil hts
    exact ⟨v, by simpa using a.go⟩
  | w :: fs, f, gs, p, n, ts, v, hsh, hfine, hts, a, hbase, hroom => by
    obtain ⟨t0, ts0, rfl, hs0, hts⟩ := spec_cons hts
    obtain ⟨t1, ts1, rfl, hs1, hts⟩ := spec_cons hts
    obtain ⟨hk0, hc0, hv0⟩ := spec_sym (hfine t0 (by simp)) hs0
    obtain ⟨hk1, hc1, hv1⟩ := spec_word (hfine t1 (by simp)) hs1 (hsh w (by simp))
    obtain ⟨p0, r0, a0, -⟩ := a.shift (y := 45) (by rw [hk0]; decide +kernel) (by simp only [List.length_cons]; omega)
    obtain ⟨p1, r1, a1, c1⟩ := a0.shift (y := 67) (by rw [hk1]; decide +kernel) (by simp only [List.length_cons]; omega)
    rw [hc1, hv1] at a1
    rw [hc1] at c1
    obtain ⟨p', r', a', -⟩ := a1.red (r := 30) (by decide +kernel) c1 [(67, _), (45, _), (20, _)] rfl rfl rfl
      (by decide) (base_goto s0 hbase).2.2.2.2.1 (v := .none)
      (F' := (lang cfg).fields (f :: (gs ++ [w])) :: F) (res' := res)
      (fun p' e1 e2 e3 => by
        refine (act30 (read_ok (by omega))).trans ?_
        rw [e1]
        simp only [cur, List.headD_cons, List.tail_cons, fields_snoc]
        rw [← e2]) (by omega)
    obtain ⟨v', h⟩ := run_fields fs f (gs ++ [w]) p' _ ts1 .none (fun w h => hsh w (List.mem_cons_of_mem _ h))
      (fun t h => hfine t (List.mem_cons_of_mem _ (List.mem_cons_of_mem _ h))) hts a' hbase hroom
    rw [List.append_assoc, List.singleton_append] at h
    exact ⟨v', Go.cast (Go.then (r0.trans (r1.trans r')) h) (by simp [hc0, hc1]; omega)⟩

end

mutual
theorem room_pos : ∀ e : QExp, 6 ≤ e.room
  | .leaf _ => Nat.le_refl _
  | .nothing => Nat.le_refl _
  | .parens cs => by have := csroom_pos cs; rw [QExp.room]; omega
  | .within _ _ e => by have := room_pos e; rw [QExp.room]; omega
  | .everywhere e => by have := room_pos e; rw [QExp.room]; omega
theorem croom_pos : ∀ c : QClause, 7 ≤ c.room
  | .mk _ e _ => by have := room_pos e; rw [QClause.room]; omega
theorem csroom_pos : ∀ cs : QClauses, 7 ≤ cs.room
  | .one c => croom_pos c
  | .more cs _ c => by have := csroom_pos cs; rw [QClauses.room]; omega
end

mutual
/-- Queries are read as what they mean. -/
theorem run_exp {cfg : Cfg} {qlen : Nat} (hlow : ∀ c, cfg.lower (cfg.lower c) = cfg.lower c) {res : Option Qry}
    {rest : List LexTok} : ∀ (e : QExp) (p : PS) (F : List (List Fld)) (n : Nat) (ts : List LexTok) (s0 : Nat) (v0 : Val)
    (st : List (Nat × Val)), Good cfg e.written → e.apart = true → translate (headTok rest) ∈ follows →
    (e.bare = true → translate (headTok rest) ≠ 3) → (∀ t ∈ ts, Fine t) → ts.map LexTok.spec = e.written →
    At cfg qlen p ((s0, v0) :: st) F res n (ts ++ rest) → s0 ∈ base10 → st.length + 1 + e.room < 10000 →
    Go cfg qlen p ((g31 s0, .q (e.meant (lang cfg) (cur F))) :: (s0, v0) :: st) F res (n + calls ts) rest
  | .leaf l, p, F, n, ts, s0, v0, st, hg, _, hfol, hbare, hfine, hts, a, hbase, hroom => by
    simp only [QExp.room] at hroom
    rw [QExp.meant]
    refine run_leaf hlow hg.tame hg.ord hfol ?_ hfine hts a hbase (by omega)
    intro h
    refine hbare ?_
    match l, h with
    | .fuzzy _ none, _ => rfl
  | .nothing, p, F, n, ts, s0, v0, st, hg, _, hfol, _, hfine, hts, a, hbase, hroom => by
    simp only [QExp.room] at hroom
    rw [QExp.meant]
    obtain ⟨t0, ts0, rfl, hs0, hts⟩ := spec_cons hts
    obtain ⟨t1, ts1, rfl, hs1, hts⟩ := spec_cons hts
    obtain rfl := spec_nil hts
    obtain ⟨hk0, hc0, -⟩ := spec_sym (hfine t0 (by simp)) hs0
    obtain ⟨hk1, hc1, -⟩ := spec_sym (hfine t1 (by simp)) hs1
    obtain ⟨p0, r0, a0, -⟩ := a.shift (y := 5) (by rw [hk0]; exact (base_shift s0 hbase).2.2.1) (by omega)
    obtain ⟨p1, r1, a1, c1⟩ := a0.shift (y := 26) (by rw [hk1]; decide +kernel) (by simp only [List.length_cons]; omega)
    obtain ⟨p', r', a', -⟩ := a1.red (r := 14) (by decide +kernel) c1 [(26, _), (5, _)] rfl rfl rfl (by decide)
      (base_goto s0 hbase).1 (v := .q (some (.bool [] true))) (fun p' e1 e2 e3 => by rw [← keep e1 e2]; rfl) (by omega)
    exact Go.cast ⟨p', r0.trans (r1.trans r'), a'⟩ (by simp [hc0, hc1])
  | .parens cs, p, F, n, ts, s0, v0, st, hg, hap, hfol, _, hfine, hts, a, hbase, hroom => by
    simp only [QExp.room] at hroom
    have hpos := csroom_pos cs
    rw [QExp.apart] at hap
    rw [QExp.meant]
    rw [QExp.written] at hg
    simp only [QExp.written, List.append_assoc, List.cons_append, List.nil_append] at hts
    obtain ⟨t0, ts0, rfl, hs0, hts⟩ := spec_cons hts
    obtain ⟨t1, ts1, rfl, h1, hts⟩ := spec_append hts
    obtain ⟨t2, ts1, rfl, hs2, hts⟩ := spec_cons hts
    obtain rfl := spec_nil hts
    obtain ⟨hk0, hc0, -⟩ := spec_sym (hfine t0 (by simp)) hs0
    obtain ⟨hk2, hc2, -⟩ := spec_sym (hfine t2 (by simp)) hs2
    simp only [List.cons_append, List.append_assoc, List.nil_append] at a
    have hh : translate (headTok (t2 :: rest)) = 14 := by simp only [headTok]; rw [hk2]; rfl
    obtain ⟨p0, r0, a0, -⟩ := a.shift (y := 5) (by rw [hk0]; exact (base_shift s0 hbase).2.2.1) (by omega)
    obtain ⟨p1, r1, a1⟩ := run_clauses hlow cs p0 F _ t1 5 _ _ hg.left.right hap
      (by rw [hh]; exact ⟨by decide, by decide⟩) (fun _ => by rw [hh]; decide) (fun t h => hfine t (by simp [h])) h1 a0
      (by decide) (by simp only [List.length_cons]; omega)
    obtain ⟨p2, r2, a2, c2⟩ := a1.shift (y := 47) (by rw [hk2]; decide +kernel) (by simp only [List.length_cons]; omega)
    obtain ⟨p', r', a', -⟩ := a2.red (r := 15) (by decide +kernel) c2 [(47, _), (27, _), (5, _)] rfl rfl rfl (by decide)
      (base_goto s0 hbase).1 (v := .q (boolOf (cs.meant (lang cfg) (cur F))))
      (fun p' e1 e2 e3 => by rw [← keep e1 e2, ← getBoolQ_eq]; rfl) (by omega)
    exact Go.cast ⟨p', r0.trans (r1.trans (r2.trans r')), a'⟩ (by simp [hc0, hc2])
  | .within f fs e, p, F, n, ts, s0, v0, st, hg, hap, hfol, hbare, hfine, hts, a, hbase, hroom => by
    simp only [QExp.room] at hroom
    have hpos := room_pos e
    rw [QExp.apart] at hap
    rw [QExp.bare] at hbare
    rw [QExp.meant]
    rw [QExp.written] at hg
    have hsh : ∀ w, w = f ∨ w ∈ fs → w.length ≤ 253 := by
      intro w h
      refine hg.tame.short w (Or.inl ?_)
      rcases h with rfl | h
      · simp
      · simp only [List.mem_append]
        exact Or.inl (Or.inl (Or.inr (List.mem_flatMap.2 ⟨w, h, by simp⟩)))
    simp only [QExp.written, List.append_assoc, List.cons_append, List.nil_append] at hts
    obtain ⟨t0, ts0, rfl, hs0, hts⟩ := spec_cons hts
    obtain ⟨t1, ts1, rfl, h1, hts⟩ := spec_append hts
    obtain ⟨t2, ts2, rfl, hs2, hts⟩ := spec_cons hts
    obtain ⟨hk0, hc0, hv0⟩ := spec_word (hfine t0 (by simp)) hs0 (hsh f (Or.inl rfl))
    obtain ⟨hk2, hc2, -⟩ := spec_sym (hfine t2 (by simp)) hs2
    simp only [List.cons_append, List.append_assoc, List.nil_append] at a
    have hh : translate (headTok (t1 ++ t2 :: (ts2 ++ rest))) = 10 ∨ translate (headTok (t1 ++ t2 :: (ts2 ++ rest))) = 17 := by
      cases fs with
      | nil =>
        obtain rfl := spec_nil h1
        left
        simp only [List.nil_append, headTok]; rw [hk2]; rfl
      | cons g fs =>
        right
        obtain ⟨t3, ts3, rfl, hs3, -⟩ := spec_cons h1
        simp only [List.cons_append, headTok]
        rw [(spec_sym (hfine t3 (by simp)) hs3).1]; rfl
    obtain ⟨p0, r0, a0, -⟩ := a.shift (y := 1) (by rw [hk0]; exact (base_shift s0 hbase).1) (by omega)
    rw [hc0, hv0] at a0
    obtain ⟨p1, r1, a1⟩ := a0.redAt (r := 29) (by rcases hh with hh | hh <;> rw [hh] <;> decide +kernel) [(1, _)] rfl rfl
      rfl (by decide) (base_goto s0 hbase).2.2.2.2.1 (v := .none) (F' := (lang cfg).fields [f] :: F) (res' := res)
      (fun p' e1 e2 e3 => by
        refine (act29 (read_ok (by omega))).trans ?_
        rw [e1, ← e2, addField_eq]
        rfl) (by omega)
    obtain ⟨v2, p2, r2, a2⟩ := run_fields fs f [] p1 _ t1 _ (fun w h => hsh w (Or.inr h)) (fun t h => hfine t (by simp [h]))
      h1 a1 hbase (by omega)
    obtain ⟨p3, r3, a3, -⟩ := a2.shift (y := 44) (by rw [hk2]; decide +kernel) (by simp only [List.length_cons]; omega)
    obtain ⟨p4, r4, a4⟩ := run_exp hlow e p3 _ _ ts2 44 _ _ hg.right hap hfol hbare
      (fun t h => hfine t (by simp [h])) hts a3 (by decide) (by simp only [List.length_cons]; omega)
    obtain ⟨p5, r5, a5, -⟩ := a4.red (r := 24) (by decide +kernel) (Nat.le_refl _) [] rfl rfl rfl (by decide)
      (g := 77) (by decide +kernel) (v := .none) (F' := F) (res' := res)
      (fun p' e1 e2 e3 => by
        show Res.ok (Val.none, { p' with fields := p'.fields.tail }) = _
        rw [e1, ← e2]
        rfl) (by simp only [List.length_cons]; omega)
    obtain ⟨p6, r6, a6, -⟩ := a5.red (r := 25) (by decide +kernel) (Nat.le_refl _) [(77, _), (66, _), (44, _), (20, _)] rfl
      rfl rfl (by decide) (base_goto s0 hbase).2.2.2.1 (v := .q (e.meant (lang cfg) ((lang cfg).fields (f :: fs))))
      (fun p' e1 e2 e3 => by rw [← keep e1 e2]; rfl) (by omega)
    exact Go.cast (Go.then (r0.trans (r1.trans (r2.trans (r3.trans (r4.trans (r5.trans r6))))))
      (a6.toExp hbase (Or.inr (Or.inr (Or.inl ⟨rfl, rfl⟩))) (by omega))) (by simp [hc0, hc2]; omega)
  | .everywhere e, p, F, n, ts, s0, v0, st, hg, hap, hfol, hbare, hfine, hts, a, hbase, hroom => by
    simp only [QExp.room] at hroom
    have hpos := room_pos e
    rw [QExp.apart] at hap
    rw [QExp.bare] at hbare
    rw [QExp.meant]
    rw [QExp.written] at hg
    simp only [QExp.written, List.cons_append, List.nil_append] at hts
    obtain ⟨t0, ts0, rfl, hs0, hts⟩ := spec_cons hts
    obtain ⟨t2, ts2, rfl, hs2, hts⟩ := spec_cons hts
    obtain ⟨hk0, hc0, -⟩ := spec_sym (hfine t0 (by simp)) hs0
    obtain ⟨hk2, hc2, -⟩ := spec_sym (hfine t2 (by simp)) hs2
    simp only [List.cons_append] at a
    obtain ⟨p0, r0, a0, -⟩ := a.shift (y := 6) (by rw [hk0]; exact (base_shift s0 hbase).2.2.2.1) (by omega)
    obtain ⟨p1, r1, a1, -⟩ := a0.red (r := 26) (by decide +kernel) (Nat.le_refl _) [] rfl rfl rfl (by decide)
      (g := 28) (by decide +kernel) (v := .none) (F' := cfg.allFields :: F) (res' := res)
      (fun p' e1 e2 e3 => by
        show Res.ok (Val.none, { p' with fields := cfg.allFields :: p'.fields }) = _
        rw [e1, ← e2]) (by simp only [List.length_cons]; omega)
    obtain ⟨p3, r3, a3, -⟩ := a1.shift (y := 48) (by rw [hk2]; decide +kernel) (by simp only [List.length_cons]; omega)
    obtain ⟨p4, r4, a4⟩ := run_exp hlow e p3 _ _ ts2 48 _ _ hg.right hap hfol hbare
      (fun t h => hfine t (by simp [h])) hts a3 (by decide) (by simp only [List.length_cons]; omega)
    obtain ⟨p5, r5, a5, -⟩ := a4.red (r := 27) (by decide +kernel) (Nat.le_refl _) [] rfl rfl rfl (by decide)
      (g := 78) (by decide +kernel) (v := .none) (F' := F) (res' := res)
      (fun p' e1 e2 e3 => by
        show Res.ok (Val.none, { p' with fields := p'.fields.tail }) = _
        rw [e1, ← e2]
        rfl) (by simp only [List.length_cons]; omega)
    obtain ⟨p6, r6, a6, -⟩ := a5.red (r := 28) (by decide +kernel) (Nat.le_refl _)
      [(78, _), (68, _), (48, _), (28, _), (6, _)] rfl
      rfl rfl (by decide) (base_goto s0 hbase).2.2.2.1 (v := .q (e.meant (lang cfg) (lang cfg).known))
      (fun p' e1 e2 e3 => by rw [← keep e1 e2]; rfl) (by omega)
    exact Go.cast (Go.then (r0.trans (r1.trans (r3.trans (r4.trans (r5.trans r6)))))
      (a6.toExp hbase (Or.inr (Or.inr (Or.inl ⟨rfl, rfl⟩))) (by omega))) (by simp [hc0, hc2])
/-- Clauses are read as what they mean. -/
theorem run_clause {cfg : Cfg} {qlen : Nat} (hlow : ∀ c, cfg.lower (cfg.lower c) = cfg.lower c) {res : Option Qry}
    {rest : List LexTok} : ∀ (c : QClause) (p : PS) (F : List (List Fld)) (n : Nat) (ts : List LexTok) (s0 : Nat)
    (v0 : Val) (st : List (Nat × Val)), Good cfg c.written → c.apart = true →
    translate (headTok rest) ∈ follows ∧ translate (headTok rest) ≠ 12 →
    (c.bare = true → translate (headTok rest) ≠ 3) → (∀ t ∈ ts, Fine t) → ts.map LexTok.spec = c.written →
    At cfg qlen p ((s0, v0) :: st) F res n (ts ++ rest) → s0 ∈ base6 → st.length + 1 + c.room < 10000 →
    Go cfg qlen p ((g29 s0, .cls (c.meant (lang cfg) (cur F))) :: (s0, v0) :: st) F res (n + calls ts) rest
  | .mk s e b, p, F, n, ts, s0, v0, st, hg, hap, hfol, hbare, hfine, hts, a, hbase, hroom => by
    simp only [QClause.room] at hroom
    have hroom6 : 6 ≤ e.room := room_pos e
    rw [QClause.apart] at hap
    rw [QClause.bare] at hbare
    rw [QClause.meant]
    rw [QClause.written] at hg
    obtain ⟨h8, h30, h29, h9s, h8s⟩ := base6_facts s0 hbase
    have body : ∀ (p : PS) (n : Nat) (ts : List LexTok) (s : Nat) (v : Val) (st : List (Nat × Val)), s ∈ base8 →
        (∀ t ∈ ts, Fine t) → ts.map LexTok.spec = e.written ++ writtenBoost b →
        At cfg qlen p ((s, v) :: st) F res n (ts ++ rest) → st.length + 1 + e.room < 10000 →
        Go cfg qlen p ((g30 s, .q ((e.meant (lang cfg) (cur F)).map (boosted b))) :: (s, v) :: st) F res (n + calls ts)
          rest := by
      intro p n ts s v st hs hfine hts a hroom
      obtain ⟨t1, t2, rfl, h1, h2⟩ := spec_append hts
      obtain ⟨g1, g2, -⟩ := base8_facts s hs
      rw [List.append_assoc] at a
      have hb : ∀ w, b = some w → w.length ≤ 253 := by
        rintro w rfl
        exact hg.tame.short w (Or.inl (by simp [writtenBoost]))
      have hh : translate (headTok (t2 ++ rest)) ∈ follows ∧ (e.bare = true → translate (headTok (t2 ++ rest)) ≠ 3) := by
        cases b with
        | none =>
          obtain rfl := spec_nil h2
          exact ⟨hfol.1, fun h => hbare (by simpa using h)⟩
        | some w =>
          obtain ⟨t3, t4, rfl, h3, -⟩ := spec_cons h2
          simp only [List.cons_append, headTok]
          rw [(spec_sym (hfine t3 (by simp)) h3).1]
          exact ⟨by decide, fun _ => by decide⟩
      obtain ⟨p1, r1, a1⟩ := run_exp hlow e p F n t1 s v st hg.left.right hap hh.1 hh.2
        (fun t h => hfine t (by simp [h])) h1 a g1 hroom
      rw [g2] at a1
      exact Go.cast (Go.then r1 (run_boost hb hfol (fun t h => hfine t (by simp [h])) h2 hs a1 (by omega)))
        (by simp; omega)
    match s with
    | .none =>
      simp only [QClause.written, QSign.written, List.nil_append] at hts
      obtain ⟨p1, r1, a1⟩ := body p n ts s0 v0 st h8 hfine hts a (by omega)
      rw [h30] at a1
      obtain ⟨p2, r2, a2, -⟩ := a1.red (r := 10) (by decide +kernel) (Nat.le_refl _) [(15, _)] rfl rfl rfl (by decide) h29
        (v := .cls ((e.meant (lang cfg) (cur F)).map (fun q => (QSign.none.occ, boosted b q))))
        (fun p' e1 e2 e3 => by rw [← keep e1 e2, ← getBoolCls_eq]; rfl) (by omega)
      exact ⟨p2, r1.trans r2, a2⟩
    | .req =>
      simp only [QClause.written, QSign.written, List.cons_append, List.nil_append] at hts
      obtain ⟨t0, ts0, rfl, hs0, hts⟩ := spec_cons hts
      have hk0 := (spec_key hs0).2.2.1 rfl
      obtain ⟨p0, r0, a0, -⟩ := a.shift (y := 4) (by rw [hk0]; exact h9s) (by omega)
      obtain ⟨p1, r1, a1⟩ := body p0 _ ts0 4 _ _ (by decide) (fun t h => hfine t (by simp [h])) hts a0
        (by simp only [List.length_cons]; omega)
      obtain ⟨p2, r2, a2, -⟩ := a1.red (r := 8) (by decide +kernel) (Nat.le_refl _) [(25, _), (4, _)] rfl rfl rfl
        (by decide) h29 (v := .cls ((e.meant (lang cfg) (cur F)).map (fun q => (QSign.req.occ, boosted b q))))
        (fun p' e1 e2 e3 => by rw [← keep e1 e2, ← getBoolCls_eq]; rfl) (by omega)
      exact Go.cast ⟨p2, r0.trans (r1.trans r2), a2⟩ (by simp; omega)
    | .not =>
      simp only [QClause.written, QSign.written, List.cons_append, List.nil_append] at hts
      obtain ⟨t0, ts0, rfl, hs0, hts⟩ := spec_cons hts
      have hk0 := (spec_key hs0).2.2.2 rfl
      obtain ⟨p0, r0, a0, -⟩ := a.shift (y := 3) (by rw [hk0]; exact h8s) (by omega)
      obtain ⟨p1, r1, a1⟩ := body p0 _ ts0 3 _ _ (by decide) (fun t h => hfine t (by simp [h])) hts a0
        (by simp only [List.length_cons]; omega)
      obtain ⟨p2, r2, a2, -⟩ := a1.red (r := 9) (by decide +kernel) (Nat.le_refl _) [(24, _), (3, _)] rfl rfl rfl
        (by decide) h29 (v := .cls ((e.meant (lang cfg) (cur F)).map (fun q => (QSign.not.occ, boosted b q))))
        (fun p' e1 e2 e3 => by rw [← keep e1 e2, ← getBoolCls_eq]; rfl) (by omega)
      exact Go.cast ⟨p2, r0.trans (r1.trans r2), a2⟩ (by simp; omega)
/-- Several clauses are read as what they mean. -/
theorem run_clauses {cfg : Cfg} {qlen : Nat} (hlow : ∀ c, cfg.lower (cfg.lower c) = cfg.lower c) {res : Option Qry}
    {rest : List LexTok} : ∀ (cs : QClauses) (p : PS) (F : List (List Fld)) (n : Nat) (ts : List LexTok) (s0 : Nat)
    (v0 : Val) (st : List (Nat × Val)), Good cfg cs.written → cs.apart = true →
    translate (headTok rest) ∈ follows ∧ translate (headTok rest) ≠ 12 →
    (cs.bare = true → translate (headTok rest) ≠ 3) → (∀ t ∈ ts, Fine t) → ts.map LexTok.spec = cs.written →
    At cfg qlen p ((s0, v0) :: st) F res n (ts ++ rest) → s0 ∈ [0, 5] → st.length + 1 + cs.room < 10000 →
    Go cfg qlen p ((g28 s0, .clss (cs.meant (lang cfg) (cur F))) :: (s0, v0) :: st) F res (n + calls ts) rest
  | .one c, p, F, n, ts, s0, v0, st, hg, hap, hfol, hbare, hfine, hts, a, hbase, hroom => by
    simp only [QClauses.room] at hroom
    have := croom_pos c
    obtain ⟨h6, h29, h28, -⟩ := base2_facts s0 hbase
    obtain ⟨p1, r1, a1⟩ := run_clause hlow c p F n ts s0 v0 st hg hap hfol hbare hfine hts a h6 hroom
    rw [h29] at a1
    obtain ⟨p2, r2, a2, -⟩ := a1.red (r := 4) (by decide +kernel) (Nat.le_refl _) [(14, _)] rfl rfl rfl (by decide) h28
      (v := .clss ((QClauses.one c).meant (lang cfg) (cur F)))
      (fun p' e1 e2 e3 => by rw [← keep e1 e2, QClauses.meant]; rfl) (by omega)
    exact ⟨p2, r1.trans r2, a2⟩
  | .more cs j c, p, F, n, ts, s0, v0, st, hg, hap, hfol, hbare, hfine, hts, a, hbase, hroom => by
    simp only [QClauses.room] at hroom
    have hcr := croom_pos c
    rw [QClauses.apart, Bool.and_eq_true, Bool.and_eq_true] at hap
    obtain ⟨⟨hap1, hap2⟩, hap3⟩ := hap
    rw [QClauses.bare] at hbare
    rw [QClauses.meant]
    rw [QClauses.written] at hg hts
    obtain ⟨h6, h29, h28, hb28, hg29, h7s, h6s⟩ := base2_facts s0 hbase
    obtain ⟨t12, t3, rfl, h12, h3⟩ := spec_append hts
    obtain ⟨t1, t2, rfl, h1, h2⟩ := spec_append h12
    simp only [List.append_assoc] at a
    match j with
    | .and =>
      obtain ⟨t0, ts0, rfl, hs0, h2⟩ := spec_cons h2
      obtain rfl := spec_nil h2
      have hk0 := (spec_key hs0).1 rfl
      have hh : translate (headTok (t0 :: (t3 ++ rest))) = 7 := by simp only [headTok]; rw [hk0]; rfl
      obtain ⟨p1, r1, a1⟩ := run_clauses hlow cs p F n t1 s0 v0 st hg.left.left hap1
        (by simp only [List.cons_append, List.nil_append]; rw [hh]; exact ⟨by decide, by decide⟩)
        (fun _ => by simp only [List.cons_append, List.nil_append]; rw [hh]; decide)
        (fun t h => hfine t (by simp [h])) h1 a hbase (by omega)
      obtain ⟨p2, r2, a2, -⟩ := a1.shift (y := 41) (by rw [hk0]; exact h7s) (by simp only [List.length_cons]; omega)
      obtain ⟨p3, r3, a3⟩ := run_clause hlow c p2 F _ t3 41 _ _ hg.right hap2 hfol hbare
        (fun t h => hfine t (by simp [h])) h3 a2 (by decide) (by simp only [List.length_cons]; omega)
      obtain ⟨p4, r4, a4, -⟩ := a3.red (r := 5) (by decide +kernel) (Nat.le_refl _) [(64, _), (41, _), (g28 s0, _)] rfl rfl
        rfl (by decide) h28 (v := .clss ((lang cfg).join .and (cs.meant (lang cfg) (cur F)) (c.meant (lang cfg) (cur F))))
        (fun p' e1 e2 e3 => by rw [← keep e1 e2, ← join_and]; rfl) (by omega)
      exact Go.cast ⟨p4, r1.trans (r2.trans (r3.trans r4)), a4⟩ (by simp; omega)
    | .or =>
      obtain ⟨t0, ts0, rfl, hs0, h2⟩ := spec_cons h2
      obtain rfl := spec_nil h2
      have hk0 := (spec_key hs0).2.1 rfl
      have hh : translate (headTok (t0 :: (t3 ++ rest))) = 6 := by simp only [headTok]; rw [hk0]; rfl
      obtain ⟨p1, r1, a1⟩ := run_clauses hlow cs p F n t1 s0 v0 st hg.left.left hap1
        (by simp only [List.cons_append, List.nil_append]; rw [hh]; exact ⟨by decide, by decide⟩)
        (fun _ => by simp only [List.cons_append, List.nil_append]; rw [hh]; decide)
        (fun t h => hfine t (by simp [h])) h1 a hbase (by omega)
      obtain ⟨p2, r2, a2, -⟩ := a1.shift (y := 40) (by rw [hk0]; exact h6s) (by simp only [List.length_cons]; omega)
      obtain ⟨p3, r3, a3⟩ := run_clause hlow c p2 F _ t3 40 _ _ hg.right hap2 hfol hbare
        (fun t h => hfine t (by simp [h])) h3 a2 (by decide) (by simp only [List.length_cons]; omega)
      obtain ⟨p4, r4, a4, -⟩ := a3.red (r := 6) (by decide +kernel) (Nat.le_refl _) [(63, _), (40, _), (g28 s0, _)] rfl rfl
        rfl (by decide) h28 (v := .clss ((lang cfg).join .or (cs.meant (lang cfg) (cur F)) (c.meant (lang cfg) (cur F))))
        (fun p' e1 e2 e3 => by rw [← keep e1 e2, ← join_or]; rfl) (by omega)
      exact Go.cast ⟨p4, r1.trans (r2.trans (r3.trans r4)), a4⟩ (by simp; omega)
    | .next =>
      obtain rfl := spec_nil h2
      rw [List.nil_append] at a
      obtain ⟨hh1, hh2⟩ := clause_head (rest := rest) hg.right.tame (fun t h => hfine t (by simp [h])) h3
      obtain ⟨p1, r1, a1⟩ := run_clauses hlow cs p F n t1 s0 v0 st hg.left.left hap1
        (starts_follow _ hh1) (fun hb => hh2 (by
          rw [hb] at hap3
          simpa using hap3))
        (fun t h => hfine t (by simp [h])) h1 a hbase (by omega)
      obtain ⟨p3, r3, a3⟩ := run_clause hlow c p1 F _ t3 (g28 s0) _ _ hg.right hap2 hfol hbare
        (fun t h => hfine t (by simp [h])) h3 a1 hb28 (by simp only [List.length_cons]; omega)
      rw [hg29] at a3
      obtain ⟨p4, r4, a4, -⟩ := a3.red (r := 7) (by decide +kernel) (Nat.le_refl _) [(42, _), (g28 s0, _)] rfl rfl
        rfl (by decide) h28 (v := .clss ((lang cfg).join .next (cs.meant (lang cfg) (cur F)) (c.meant (lang cfg) (cur F))))
        (fun p' e1 e2 e3 => by rw [← keep e1 e2, ← join_next]; rfl) (by omega)
      exact Go.cast ⟨p4, r1.trans (r3.trans r4), a4⟩ (by simp; omega)
end

end Ferret.QP
