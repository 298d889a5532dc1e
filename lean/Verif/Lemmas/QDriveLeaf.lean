import Verif.Lemmas.QDrive

/-!
The query parser reads every leaf of the query language: words, words with wild cards, fuzzy words, phrases and
ranges.
-/

namespace Ferret.QP
open Ferret.Spec

theorem base_shift : ∀ s ∈ base10, shiftTo s 3 = some 1 ∧ shiftTo s 4 = some 2 ∧ shiftTo s 13 = some 5 ∧
    shiftTo s 16 = some 6 ∧ shiftTo s 18 = some 7 ∧ shiftTo s 19 = some 8 ∧ shiftTo s 20 = some 9 ∧
    shiftTo s 21 = some 10 ∧ shiftTo s 24 = some 11 := by decide +kernel

/-- Where a query leads. -/
def g31 (s : Nat) : Nat := if s = 44 then 66 else if s = 48 then 68 else 16

theorem base_goto : ∀ s ∈ base10, goto s 31 = some (g31 s) ∧ goto s 32 = some 17 ∧ goto s 33 = some 18 ∧
    goto s 34 = some 19 ∧ goto s 38 = some 20 ∧ goto s 39 = some 21 ∧ goto s 41 = some 22 := by decide +kernel

/-- What may follow a query. -/
def follows : List Nat := [0, 3, 4, 6, 7, 8, 9, 12, 13, 14, 16, 18, 19, 20, 21, 24]

theorem follow_rules : ∀ k ∈ follows, ruleAt 1 k = some 20 ∧ (k ≠ 3 → ruleAt 23 k = some 22) ∧
    ruleAt 53 k = some 31 ∧ ruleAt 30 k = some 33 ∧ ruleAt 33 k = some 48 := by decide +kernel

section
variable {cfg : Cfg} {qlen : Nat} {p : PS} {F : List (List Fld)} {res : Option Qry} {n : Nat}
  {ts rest : List LexTok} {s0 : Nat} {v0 : Val} {st : List (Nat × Val)}

theorem keep {p : PS} {F : List (List Fld)} {res : Option Qry} (h1 : p.fields = F) (h2 : p.result = res) :
    p = { p with fields := F, result := res } := by
  subst h1 h2
  rfl

theorem Go.cast {stk : List (Nat × Val)} {m : Nat} (h : Go cfg qlen p stk F res n ts) (e : n = m) :
    Go cfg qlen p stk F res m ts := e ▸ h

/-- What a leaf, a phrase or a range gives is a query. -/
theorem At.toExp {k r : Nat} {q : Option Qry} (a : At cfg qlen p ((k, .q q) :: (s0, v0) :: st) F res n ts)
    (hbase : s0 ∈ base10) (hk : (k = 17 ∧ r = 13) ∨ (k = 18 ∧ r = 19) ∨ (k = 19 ∧ r = 16) ∨ (k = 21 ∧ r = 17) ∨
      (k = 22 ∧ r = 18)) (hroom : st.length + 7 < 10000) :
    Go cfg qlen p ((g31 s0, .q q) :: (s0, v0) :: st) F res n ts := by
  have key : ∀ r, ruleOf k = some r → yyr2[r]? = some 1 → yyr1[r]? = some 31 → r ≠ 0 →
      (∀ p, act cfg qlen r [.q q] p = .ok (.q q, p)) →
      Go cfg qlen p ((g31 s0, .q q) :: (s0, v0) :: st) F res n ts := by
    intro r h1 h2 h3 h4 h5
    obtain ⟨p', r1, a1, -⟩ := a.red h1 (Nat.le_refl _) [(k, .q q)] rfl h2 h3 h4 (base_goto s0 hbase).1 (v := .q q)
      (fun p' e1 e2 _ => by rw [← keep e1 e2]; exact h5 p') (by omega)
    exact ⟨p', r1, a1⟩
  rcases hk with ⟨rfl, rfl⟩ | ⟨rfl, rfl⟩ | ⟨rfl, rfl⟩ | ⟨rfl, rfl⟩ | ⟨rfl, rfl⟩
  · exact key 13 (by decide +kernel) rfl rfl (by decide) (fun _ => rfl)
  · exact key 19 (by decide +kernel) rfl rfl (by decide) (fun _ => rfl)
  · exact key 16 (by decide +kernel) rfl rfl (by decide) (fun _ => rfl)
  · exact key 17 (by decide +kernel) rfl rfl (by decide) (fun _ => rfl)
  · exact key 18 (by decide +kernel) rfl rfl (by decide) (fun _ => rfl)


theorem run_word {w : QWord} (hl_w : w.length ≤ 253) (hfol : translate (headTok rest) ∈ follows) (hfine : ∀ t ∈ ts, Fine t) (hts : ts.map LexTok.spec = (QLeaf.word w).written)
    (a : At cfg qlen p ((s0, v0) :: st) F res n (ts ++ rest)) (hbase : s0 ∈ base10) (hroom : st.length + 7 < 10000) :
    Go cfg qlen p ((g31 s0, .q ((lang cfg).leaf (cur F) (QLeaf.word w))) :: (s0, v0) :: st) F res (n + calls ts) rest := by
  simp only [QLeaf.written, writtenSlop, Option.map_some, Option.map_none, Option.toList, List.cons_append, List.nil_append,
    List.append_nil, if_true, if_false, Bool.false_eq_true] at hts
  obtain ⟨t0, ts0, rfl, hs0, hts⟩ := spec_cons hts
  obtain ⟨hk0, hc0, hv0⟩ := spec_word (hfine t0 (by simp)) hs0 hl_w
  obtain rfl := spec_nil hts
  simp only [List.cons_append, List.nil_append] at a
  obtain ⟨p0, r0, a0, c0⟩ := a.shift (y := 1) (by rw [hk0]; exact (base_shift s0 hbase).1) (by first | omega | (simp only [List.length_cons]; omega))
  rw [hc0, hv0] at a0
  rw [hc0] at c0
  obtain ⟨q, hq⟩ := leafQ_word cfg (cur F) w
  obtain ⟨p', r', a'⟩ := a0.redAt (r := 20) ((follow_rules _ hfol).1) [(1, _)] rfl rfl rfl (by decide) (base_goto s0 hbase).2.1
    (fun p' e1 e2 e3 => by rw [← keep e1 e2]; subst e1; exact act20 (read_ok (by omega)) hq) (by omega)
  rw [lang_leaf hq]
  exact (Go.then (r0.trans r') (a'.toExp hbase (Or.inl ⟨rfl, rfl⟩) hroom)).cast (by simp [hc0] <;> omega)

theorem run_fuzzy {w : QWord} (hl_w : w.length ≤ 253) (hnw : translate (headTok rest) ≠ 3) (hfol : translate (headTok rest) ∈ follows) (hfine : ∀ t ∈ ts, Fine t) (hts : ts.map LexTok.spec = (QLeaf.fuzzy w none).written)
    (a : At cfg qlen p ((s0, v0) :: st) F res n (ts ++ rest)) (hbase : s0 ∈ base10) (hroom : st.length + 7 < 10000) :
    Go cfg qlen p ((g31 s0, .q ((lang cfg).leaf (cur F) (QLeaf.fuzzy w none))) :: (s0, v0) :: st) F res (n + calls ts) rest := by
  simp only [QLeaf.written, writtenSlop, Option.map_some, Option.map_none, Option.toList, List.cons_append, List.nil_append,
    List.append_nil, if_true, if_false, Bool.false_eq_true] at hts
  obtain ⟨t0, ts0, rfl, hs0, hts⟩ := spec_cons hts
  obtain ⟨hk0, hc0, hv0⟩ := spec_word (hfine t0 (by simp)) hs0 hl_w
  obtain ⟨t1, ts1, rfl, hs1, hts⟩ := spec_cons hts
  obtain ⟨hk1, hc1, hv1⟩ := spec_sym (hfine t1 (by simp)) hs1
  obtain rfl := spec_nil hts
  simp only [List.cons_append, List.nil_append] at a
  obtain ⟨p0, r0, a0, c0⟩ := a.shift (y := 1) (by rw [hk0]; exact (base_shift s0 hbase).1) (by first | omega | (simp only [List.length_cons]; omega))
  rw [hc0, hv0] at a0
  rw [hc0] at c0
  obtain ⟨p1, r1, a1, c1⟩ := a0.shift (y := 23) (by rw [hk1]; decide +kernel) (by first | omega | (simp only [List.length_cons]; omega))
  rw [hc1, hv1] at a1
  rw [hc1] at c1
  obtain ⟨q, hq⟩ := leafQ_fuzzy cfg (cur F) w none
  obtain ⟨p', r', a'⟩ := a1.redAt (r := 22) ((follow_rules _ hfol).2.1 hnw) [(23, _), (1, _)] rfl rfl rfl (by decide) (base_goto s0 hbase).2.1
    (fun p' e1 e2 e3 => by rw [← keep e1 e2]; subst e1; exact act22 (read_ok (by omega)) hq) (by omega)
  rw [lang_leaf hq]
  exact (Go.then (r0.trans (r1.trans r')) (a'.toExp hbase (Or.inl ⟨rfl, rfl⟩) hroom)).cast (by simp [hc0, hc1] <;> omega)

theorem run_fuzzySim {w x : QWord} (hl_w : w.length ≤ 253) (hl_x : x.length ≤ 253) (hfine : ∀ t ∈ ts, Fine t) (hts : ts.map LexTok.spec = (QLeaf.fuzzy w (some x)).written)
    (a : At cfg qlen p ((s0, v0) :: st) F res n (ts ++ rest)) (hbase : s0 ∈ base10) (hroom : st.length + 7 < 10000) :
    Go cfg qlen p ((g31 s0, .q ((lang cfg).leaf (cur F) (QLeaf.fuzzy w (some x)))) :: (s0, v0) :: st) F res (n + calls ts) rest := by
  simp only [QLeaf.written, writtenSlop, Option.map_some, Option.map_none, Option.toList, List.cons_append, List.nil_append,
    List.append_nil, if_true, if_false, Bool.false_eq_true] at hts
  obtain ⟨t0, ts0, rfl, hs0, hts⟩ := spec_cons hts
  obtain ⟨hk0, hc0, hv0⟩ := spec_word (hfine t0 (by simp)) hs0 hl_w
  obtain ⟨t1, ts1, rfl, hs1, hts⟩ := spec_cons hts
  obtain ⟨hk1, hc1, hv1⟩ := spec_sym (hfine t1 (by simp)) hs1
  obtain ⟨t2, ts2, rfl, hs2, hts⟩ := spec_cons hts
  obtain ⟨hk2, hc2, hv2⟩ := spec_word (hfine t2 (by simp)) hs2 hl_x
  obtain rfl := spec_nil hts
  simp only [List.cons_append, List.nil_append] at a
  obtain ⟨p0, r0, a0, c0⟩ := a.shift (y := 1) (by rw [hk0]; exact (base_shift s0 hbase).1) (by first | omega | (simp only [List.length_cons]; omega))
  rw [hc0, hv0] at a0
  rw [hc0] at c0
  obtain ⟨p1, r1, a1, c1⟩ := a0.shift (y := 23) (by rw [hk1]; decide +kernel) (by first | omega | (simp only [List.length_cons]; omega))
  rw [hc1, hv1] at a1
  rw [hc1] at c1
  obtain ⟨p2, r2, a2, c2⟩ := a1.shift (y := 46) (by rw [hk2]; decide +kernel) (by first | omega | (simp only [List.length_cons]; omega))
  rw [hc2, hv2] at a2
  rw [hc2] at c2
  obtain ⟨q, hq⟩ := leafQ_fuzzy cfg (cur F) w (some x)
  obtain ⟨p', r', a', -⟩ := a2.red (r := 21) (by decide +kernel) c2 [(46, _), (23, _), (1, _)] rfl rfl rfl (by decide) (base_goto s0 hbase).2.1
    (fun p' e1 e2 e3 => by rw [← keep e1 e2]; subst e1; exact act21 (read_ok (by omega)) (read_ok (by omega)) hq) (by omega)
  rw [lang_leaf hq]
  exact (Go.then (r0.trans (r1.trans (r2.trans r'))) (a'.toExp hbase (Or.inl ⟨rfl, rfl⟩) hroom)).cast (by simp [hc0, hc1, hc2] <;> omega)

theorem run_wild {w : QWord} (hl_w : w.length ≤ 253) (hfine : ∀ t ∈ ts, Fine t) (hts : ts.map LexTok.spec = (QLeaf.wild w).written)
    (a : At cfg qlen p ((s0, v0) :: st) F res n (ts ++ rest)) (hbase : s0 ∈ base10) (hroom : st.length + 7 < 10000) :
    Go cfg qlen p ((g31 s0, .q ((lang cfg).leaf (cur F) (QLeaf.wild w))) :: (s0, v0) :: st) F res (n + calls ts) rest := by
  simp only [QLeaf.written, writtenSlop, Option.map_some, Option.map_none, Option.toList, List.cons_append, List.nil_append,
    List.append_nil, if_true, if_false, Bool.false_eq_true] at hts
  obtain ⟨t0, ts0, rfl, hs0, hts⟩ := spec_cons hts
  obtain ⟨hk0, hc0, hv0⟩ := spec_wild (hfine t0 (by simp)) hs0 hl_w
  obtain rfl := spec_nil hts
  simp only [List.cons_append, List.nil_append] at a
  obtain ⟨p0, r0, a0, c0⟩ := a.shift (y := 2) (by rw [hk0]; exact (base_shift s0 hbase).2.1) (by first | omega | (simp only [List.length_cons]; omega))
  rw [hc0, hv0] at a0
  rw [hc0] at c0
  obtain ⟨q, hq⟩ := leafQ_wild (cfg := cfg) (F := cur F) hl_w
  obtain ⟨p', r', a', -⟩ := a0.red (r := 23) (by decide +kernel) c0 [(2, _)] rfl rfl rfl (by decide) (base_goto s0 hbase).2.2.1
    (fun p' e1 e2 e3 => by rw [← keep e1 e2]; subst e1; exact act23 (read_ok (by omega)) hq) (by omega)
  rw [lang_leaf hq]
  exact (Go.then (r0.trans r') (a'.toExp hbase (Or.inr (Or.inl ⟨rfl, rfl⟩)) hroom)).cast (by simp [hc0] <;> omega)

theorem run_noPhrase  (hfol : translate (headTok rest) ∈ follows) (hfine : ∀ t ∈ ts, Fine t) (hts : ts.map LexTok.spec = (QLeaf.noPhrase none).written)
    (a : At cfg qlen p ((s0, v0) :: st) F res n (ts ++ rest)) (hbase : s0 ∈ base10) (hroom : st.length + 7 < 10000) :
    Go cfg qlen p ((g31 s0, .q ((lang cfg).leaf (cur F) (QLeaf.noPhrase none))) :: (s0, v0) :: st) F res (n + calls ts) rest := by
  simp only [QLeaf.written, writtenSlop, Option.map_some, Option.map_none, Option.toList, List.cons_append, List.nil_append,
    List.append_nil, if_true, if_false, Bool.false_eq_true] at hts
  obtain ⟨t0, ts0, rfl, hs0, hts⟩ := spec_cons hts
  obtain ⟨hk0, hc0, hv0⟩ := spec_sym (hfine t0 (by simp)) hs0
  obtain ⟨t1, ts1, rfl, hs1, hts⟩ := spec_cons hts
  obtain ⟨hk1, hc1, hv1⟩ := spec_sym (hfine t1 (by simp)) hs1
  obtain rfl := spec_nil hts
  simp only [List.cons_append, List.nil_append] at a
  obtain ⟨p0, r0, a0, c0⟩ := a.shift (y := 7) (by rw [hk0]; exact (base_shift s0 hbase).2.2.2.2.1) (by first | omega | (simp only [List.length_cons]; omega))
  rw [hc0, hv0] at a0
  rw [hc0] at c0
  obtain ⟨p1, r1, a1, c1⟩ := a0.shift (y := 30) (by rw [hk1]; decide +kernel) (by first | omega | (simp only [List.length_cons]; omega))
  rw [hc1, hv1] at a1
  rw [hc1] at c1
  have hq : leafQ cfg (cur F) (.noPhrase none) = .ok none := rfl
  obtain ⟨p', r', a'⟩ := a1.redAt (r := 33) ((follow_rules _ hfol).2.2.2.1) [(30, _), (7, _)] rfl rfl rfl (by decide) (base_goto s0 hbase).2.2.2.2.2.1
    (fun p' e1 e2 e3 => by rw [← keep e1 e2]; subst e1; exact rfl) (by omega)
  rw [lang_leaf hq]
  exact (Go.then (r0.trans (r1.trans r')) (a'.toExp hbase (Or.inr (Or.inr (Or.inr (Or.inl ⟨rfl, rfl⟩)))) hroom)).cast (by simp [hc0, hc1] <;> omega)

theorem run_noPhraseSlop {w : QWord} (hl_w : w.length ≤ 253) (hfine : ∀ t ∈ ts, Fine t) (hts : ts.map LexTok.spec = (QLeaf.noPhrase (some w)).written)
    (a : At cfg qlen p ((s0, v0) :: st) F res n (ts ++ rest)) (hbase : s0 ∈ base10) (hroom : st.length + 7 < 10000) :
    Go cfg qlen p ((g31 s0, .q ((lang cfg).leaf (cur F) (QLeaf.noPhrase (some w)))) :: (s0, v0) :: st) F res (n + calls ts) rest := by
  simp only [QLeaf.written, writtenSlop, Option.map_some, Option.map_none, Option.toList, List.cons_append, List.nil_append,
    List.append_nil, if_true, if_false, Bool.false_eq_true] at hts
  obtain ⟨t0, ts0, rfl, hs0, hts⟩ := spec_cons hts
  obtain ⟨hk0, hc0, hv0⟩ := spec_sym (hfine t0 (by simp)) hs0
  obtain ⟨t1, ts1, rfl, hs1, hts⟩ := spec_cons hts
  obtain ⟨hk1, hc1, hv1⟩ := spec_sym (hfine t1 (by simp)) hs1
  obtain ⟨t2, ts2, rfl, hs2, hts⟩ := spec_cons hts
  obtain ⟨hk2, hc2, hv2⟩ := spec_sym (hfine t2 (by simp)) hs2
  obtain ⟨t3, ts3, rfl, hs3, hts⟩ := spec_cons hts
  obtain ⟨hk3, hc3, hv3⟩ := spec_word (hfine t3 (by simp)) hs3 hl_w
  obtain rfl := spec_nil hts
  simp only [List.cons_append, List.nil_append] at a
  obtain ⟨p0, r0, a0, c0⟩ := a.shift (y := 7) (by rw [hk0]; exact (base_shift s0 hbase).2.2.2.2.1) (by first | omega | (simp only [List.length_cons]; omega))
  rw [hc0, hv0] at a0
  rw [hc0] at c0
  obtain ⟨p1, r1, a1, c1⟩ := a0.shift (y := 30) (by rw [hk1]; decide +kernel) (by first | omega | (simp only [List.length_cons]; omega))
  rw [hc1, hv1] at a1
  rw [hc1] at c1
  obtain ⟨p2, r2, a2, c2⟩ := a1.shift (y := 49) (by rw [hk2]; decide +kernel) (by first | omega | (simp only [List.length_cons]; omega))
  rw [hc2, hv2] at a2
  rw [hc2] at c2
  obtain ⟨p3, r3, a3, c3⟩ := a2.shift (y := 69) (by rw [hk3]; decide +kernel) (by first | omega | (simp only [List.length_cons]; omega))
  rw [hc3, hv3] at a3
  rw [hc3] at c3
  have hq : leafQ cfg (cur F) (.noPhrase (some w)) = .ok none := rfl
  obtain ⟨p', r', a', -⟩ := a3.red (r := 34) (by decide +kernel) c3 [(69, _), (49, _), (30, _), (7, _)] rfl rfl rfl (by decide) (base_goto s0 hbase).2.2.2.2.2.1
    (fun p' e1 e2 e3 => by rw [← keep e1 e2]; subst e1; exact rfl) (by omega)
  rw [lang_leaf hq]
  exact (Go.then (r0.trans (r1.trans (r2.trans (r3.trans r')))) (a'.toExp hbase (Or.inr (Or.inr (Or.inr (Or.inl ⟨rfl, rfl⟩)))) hroom)).cast (by simp [hc0, hc1, hc2, hc3] <;> omega)

theorem run_between_ii {w x : QWord} (hlow : ∀ c, cfg.lower (cfg.lower c) = cfg.lower c) (hl_w : w.length ≤ 253) (hl_x : x.length ≤ 253)
    (hord : cfg.inOrder w x = true ∧ cfg.inOrder (w.map cfg.lower) (x.map cfg.lower) = true) (hfine : ∀ t ∈ ts, Fine t) (hts : ts.map LexTok.spec = (QLeaf.between w x true true).written)
    (a : At cfg qlen p ((s0, v0) :: st) F res n (ts ++ rest)) (hbase : s0 ∈ base10) (hroom : st.length + 7 < 10000) :
    Go cfg qlen p ((g31 s0, .q ((lang cfg).leaf (cur F) (QLeaf.between w x true true))) :: (s0, v0) :: st) F res (n + calls ts) rest := by
  simp only [QLeaf.written, writtenSlop, Option.map_some, Option.map_none, Option.toList, List.cons_append, List.nil_append,
    List.append_nil, if_true, if_false, Bool.false_eq_true] at hts
  obtain ⟨t0, ts0, rfl, hs0, hts⟩ := spec_cons hts
  obtain ⟨hk0, hc0, hv0⟩ := spec_sym (hfine t0 (by simp)) hs0
  obtain ⟨t1, ts1, rfl, hs1, hts⟩ := spec_cons hts
  obtain ⟨hk1, hc1, hv1⟩ := spec_word (hfine t1 (by simp)) hs1 hl_w
  obtain ⟨t2, ts2, rfl, hs2, hts⟩ := spec_cons hts
  obtain ⟨hk2, hc2, hv2⟩ := spec_word (hfine t2 (by simp)) hs2 hl_x
  obtain ⟨t3, ts3, rfl, hs3, hts⟩ := spec_cons hts
  obtain ⟨hk3, hc3, hv3⟩ := spec_sym (hfine t3 (by simp)) hs3
  obtain rfl := spec_nil hts
  simp only [List.cons_append, List.nil_append] at a
  obtain ⟨p0, r0, a0, c0⟩ := a.shift (y := 10) (by rw [hk0]; exact (base_shift s0 hbase).2.2.2.2.2.2.2.1) (by first | omega | (simp only [List.length_cons]; omega))
  rw [hc0, hv0] at a0
  rw [hc0] at c0
  obtain ⟨p1, r1, a1, c1⟩ := a0.shift (y := 37) (by rw [hk1]; decide +kernel) (by first | omega | (simp only [List.length_cons]; omega))
  rw [hc1, hv1] at a1
  rw [hc1] at c1
  obtain ⟨p2, r2, a2, c2⟩ := a1.shift (y := 59) (by rw [hk2]; decide +kernel) (by first | omega | (simp only [List.length_cons]; omega))
  rw [hc2, hv2] at a2
  rw [hc2] at c2
  obtain ⟨p3, r3, a3, c3⟩ := a2.shift (y := 73) (by rw [hk3]; decide +kernel) (by first | omega | (simp only [List.length_cons]; omega))
  rw [hc3, hv3] at a3
  rw [hc3] at c3
  obtain ⟨q, hq⟩ : ∃ q, leafQ cfg (cur F) (.between w x true true) = .ok q := by
    rcases leafQ_between (cfg := cfg) (F := cur F) (incLo := true) (incHi := true) hlow hl_w hl_x with h | ⟨-, h⟩
    · exact h
    · exact absurd hord h
  obtain ⟨p', r', a', -⟩ := a3.red (r := 40) (by decide +kernel) c3 [(73, _), (59, _), (37, _), (10, _)] rfl rfl rfl (by decide) (base_goto s0 hbase).2.2.2.2.2.2
    (fun p' e1 e2 e3 => by rw [← keep e1 e2]; subst e1; exact (rangeAct2 (read_ok (by omega)) (read_ok (by omega)) hl_w hl_x).trans (by rw [hq]; rfl)) (by omega)
  rw [lang_leaf hq]
  exact (Go.then (r0.trans (r1.trans (r2.trans (r3.trans r')))) (a'.toExp hbase (Or.inr (Or.inr (Or.inr (Or.inr ⟨rfl, rfl⟩)))) hroom)).cast (by simp [hc0, hc1, hc2, hc3] <;> omega)

theorem run_between_ie {w x : QWord} (hlow : ∀ c, cfg.lower (cfg.lower c) = cfg.lower c) (hl_w : w.length ≤ 253) (hl_x : x.length ≤ 253)
    (hord : cfg.inOrder w x = true ∧ cfg.inOrder (w.map cfg.lower) (x.map cfg.lower) = true) (hfine : ∀ t ∈ ts, Fine t) (hts : ts.map LexTok.spec = (QLeaf.between w x true false).written)
    (a : At cfg qlen p ((s0, v0) :: st) F res n (ts ++ rest)) (hbase : s0 ∈ base10) (hroom : st.length + 7 < 10000) :
    Go cfg qlen p ((g31 s0, .q ((lang cfg).leaf (cur F) (QLeaf.between w x true false))) :: (s0, v0) :: st) F res (n + calls ts) rest := by
  simp only [QLeaf.written, writtenSlop, Option.map_some, Option.map_none, Option.toList, List.cons_append, List.nil_append,
    List.append_nil, if_true, if_false, Bool.false_eq_true] at hts
  obtain ⟨t0, ts0, rfl, hs0, hts⟩ := spec_cons hts
  obtain ⟨hk0, hc0, hv0⟩ := spec_sym (hfine t0 (by simp)) hs0
  obtain ⟨t1, ts1, rfl, hs1, hts⟩ := spec_cons hts
  obtain ⟨hk1, hc1, hv1⟩ := spec_word (hfine t1 (by simp)) hs1 hl_w
  obtain ⟨t2, ts2, rfl, hs2, hts⟩ := spec_cons hts
  obtain ⟨hk2, hc2, hv2⟩ := spec_word (hfine t2 (by simp)) hs2 hl_x
  obtain ⟨t3, ts3, rfl, hs3, hts⟩ := spec_cons hts
  obtain ⟨hk3, hc3, hv3⟩ := spec_sym (hfine t3 (by simp)) hs3
  obtain rfl := spec_nil hts
  simp only [List.cons_append, List.nil_append] at a
  obtain ⟨p0, r0, a0, c0⟩ := a.shift (y := 10) (by rw [hk0]; exact (base_shift s0 hbase).2.2.2.2.2.2.2.1) (by first | omega | (simp only [List.length_cons]; omega))
  rw [hc0, hv0] at a0
  rw [hc0] at c0
  obtain ⟨p1, r1, a1, c1⟩ := a0.shift (y := 37) (by rw [hk1]; decide +kernel) (by first | omega | (simp only [List.length_cons]; omega))
  rw [hc1, hv1] at a1
  rw [hc1] at c1
  obtain ⟨p2, r2, a2, c2⟩ := a1.shift (y := 59) (by rw [hk2]; decide +kernel) (by first | omega | (simp only [List.length_cons]; omega))
  rw [hc2, hv2] at a2
  rw [hc2] at c2
  obtain ⟨p3, r3, a3, c3⟩ := a2.shift (y := 74) (by rw [hk3]; decide +kernel) (by first | omega | (simp only [List.length_cons]; omega))
  rw [hc3, hv3] at a3
  rw [hc3] at c3
  obtain ⟨q, hq⟩ : ∃ q, leafQ cfg (cur F) (.between w x true false) = .ok q := by
    rcases leafQ_between (cfg := cfg) (F := cur F) (incLo := true) (incHi := false) hlow hl_w hl_x with h | ⟨-, h⟩
    · exact h
    · exact absurd hord h
  obtain ⟨p', r', a', -⟩ := a3.red (r := 41) (by decide +kernel) c3 [(74, _), (59, _), (37, _), (10, _)] rfl rfl rfl (by decide) (base_goto s0 hbase).2.2.2.2.2.2
    (fun p' e1 e2 e3 => by rw [← keep e1 e2]; subst e1; exact (rangeAct2 (read_ok (by omega)) (read_ok (by omega)) hl_w hl_x).trans (by rw [hq]; rfl)) (by omega)
  rw [lang_leaf hq]
  exact (Go.then (r0.trans (r1.trans (r2.trans (r3.trans r')))) (a'.toExp hbase (Or.inr (Or.inr (Or.inr (Or.inr ⟨rfl, rfl⟩)))) hroom)).cast (by simp [hc0, hc1, hc2, hc3] <;> omega)

theorem run_between_ei {w x : QWord} (hlow : ∀ c, cfg.lower (cfg.lower c) = cfg.lower c) (hl_w : w.length ≤ 253) (hl_x : x.length ≤ 253)
    (hord : cfg.inOrder w x = true ∧ cfg.inOrder (w.map cfg.lower) (x.map cfg.lower) = true) (hfine : ∀ t ∈ ts, Fine t) (hts : ts.map LexTok.spec = (QLeaf.between w x false true).written)
    (a : At cfg qlen p ((s0, v0) :: st) F res n (ts ++ rest)) (hbase : s0 ∈ base10) (hroom : st.length + 7 < 10000) :
    Go cfg qlen p ((g31 s0, .q ((lang cfg).leaf (cur F) (QLeaf.between w x false true))) :: (s0, v0) :: st) F res (n + calls ts) rest := by
  simp only [QLeaf.written, writtenSlop, Option.map_some, Option.map_none, Option.toList, List.cons_append, List.nil_append,
    List.append_nil, if_true, if_false, Bool.false_eq_true] at hts
  obtain ⟨t0, ts0, rfl, hs0, hts⟩ := spec_cons hts
  obtain ⟨hk0, hc0, hv0⟩ := spec_sym (hfine t0 (by simp)) hs0
  obtain ⟨t1, ts1, rfl, hs1, hts⟩ := spec_cons hts
  obtain ⟨hk1, hc1, hv1⟩ := spec_word (hfine t1 (by simp)) hs1 hl_w
  obtain ⟨t2, ts2, rfl, hs2, hts⟩ := spec_cons hts
  obtain ⟨hk2, hc2, hv2⟩ := spec_word (hfine t2 (by simp)) hs2 hl_x
  obtain ⟨t3, ts3, rfl, hs3, hts⟩ := spec_cons hts
  obtain ⟨hk3, hc3, hv3⟩ := spec_sym (hfine t3 (by simp)) hs3
  obtain rfl := spec_nil hts
  simp only [List.cons_append, List.nil_append] at a
  obtain ⟨p0, r0, a0, c0⟩ := a.shift (y := 11) (by rw [hk0]; exact (base_shift s0 hbase).2.2.2.2.2.2.2.2) (by first | omega | (simp only [List.length_cons]; omega))
  rw [hc0, hv0] at a0
  rw [hc0] at c0
  obtain ⟨p1, r1, a1, c1⟩ := a0.shift (y := 38) (by rw [hk1]; decide +kernel) (by first | omega | (simp only [List.length_cons]; omega))
  rw [hc1, hv1] at a1
  rw [hc1] at c1
  obtain ⟨p2, r2, a2, c2⟩ := a1.shift (y := 61) (by rw [hk2]; decide +kernel) (by first | omega | (simp only [List.length_cons]; omega))
  rw [hc2, hv2] at a2
  rw [hc2] at c2
  obtain ⟨p3, r3, a3, c3⟩ := a2.shift (y := 75) (by rw [hk3]; decide +kernel) (by first | omega | (simp only [List.length_cons]; omega))
  rw [hc3, hv3] at a3
  rw [hc3] at c3
  obtain ⟨q, hq⟩ : ∃ q, leafQ cfg (cur F) (.between w x false true) = .ok q := by
    rcases leafQ_between (cfg := cfg) (F := cur F) (incLo := false) (incHi := true) hlow hl_w hl_x with h | ⟨-, h⟩
    · exact h
    · exact absurd hord h
  obtain ⟨p', r', a', -⟩ := a3.red (r := 42) (by decide +kernel) c3 [(75, _), (61, _), (38, _), (11, _)] rfl rfl rfl (by decide) (base_goto s0 hbase).2.2.2.2.2.2
    (fun p' e1 e2 e3 => by rw [← keep e1 e2]; subst e1; exact (rangeAct2 (read_ok (by omega)) (read_ok (by omega)) hl_w hl_x).trans (by rw [hq]; rfl)) (by omega)
  rw [lang_leaf hq]
  exact (Go.then (r0.trans (r1.trans (r2.trans (r3.trans r')))) (a'.toExp hbase (Or.inr (Or.inr (Or.inr (Or.inr ⟨rfl, rfl⟩)))) hroom)).cast (by simp [hc0, hc1, hc2, hc3] <;> omega)

theorem run_between_ee {w x : QWord} (hlow : ∀ c, cfg.lower (cfg.lower c) = cfg.lower c) (hl_w : w.length ≤ 253) (hl_x : x.length ≤ 253)
    (hord : cfg.inOrder w x = true ∧ cfg.inOrder (w.map cfg.lower) (x.map cfg.lower) = true) (hfine : ∀ t ∈ ts, Fine t) (hts : ts.map LexTok.spec = (QLeaf.between w x false false).written)
    (a : At cfg qlen p ((s0, v0) :: st) F res n (ts ++ rest)) (hbase : s0 ∈ base10) (hroom : st.length + 7 < 10000) :
    Go cfg qlen p ((g31 s0, .q ((lang cfg).leaf (cur F) (QLeaf.between w x false false))) :: (s0, v0) :: st) F res (n + calls ts) rest := by
  simp only [QLeaf.written, writtenSlop, Option.map_some, Option.map_none, Option.toList, List.cons_append, List.nil_append,
    List.append_nil, if_true, if_false, Bool.false_eq_true] at hts
  obtain ⟨t0, ts0, rfl, hs0, hts⟩ := spec_cons hts
  obtain ⟨hk0, hc0, hv0⟩ := spec_sym (hfine t0 (by simp)) hs0
  obtain ⟨t1, ts1, rfl, hs1, hts⟩ := spec_cons hts
  obtain ⟨hk1, hc1, hv1⟩ := spec_word (hfine t1 (by simp)) hs1 hl_w
  obtain ⟨t2, ts2, rfl, hs2, hts⟩ := spec_cons hts
  obtain ⟨hk2, hc2, hv2⟩ := spec_word (hfine t2 (by simp)) hs2 hl_x
  obtain ⟨t3, ts3, rfl, hs3, hts⟩ := spec_cons hts
  obtain ⟨hk3, hc3, hv3⟩ := spec_sym (hfine t3 (by simp)) hs3
  obtain rfl := spec_nil hts
  simp only [List.cons_append, List.nil_append] at a
  obtain ⟨p0, r0, a0, c0⟩ := a.shift (y := 11) (by rw [hk0]; exact (base_shift s0 hbase).2.2.2.2.2.2.2.2) (by first | omega | (simp only [List.length_cons]; omega))
  rw [hc0, hv0] at a0
  rw [hc0] at c0
  obtain ⟨p1, r1, a1, c1⟩ := a0.shift (y := 38) (by rw [hk1]; decide +kernel) (by first | omega | (simp only [List.length_cons]; omega))
  rw [hc1, hv1] at a1
  rw [hc1] at c1
  obtain ⟨p2, r2, a2, c2⟩ := a1.shift (y := 61) (by rw [hk2]; decide +kernel) (by first | omega | (simp only [List.length_cons]; omega))
  rw [hc2, hv2] at a2
  rw [hc2] at c2
  obtain ⟨p3, r3, a3, c3⟩ := a2.shift (y := 76) (by rw [hk3]; decide +kernel) (by first | omega | (simp only [List.length_cons]; omega))
  rw [hc3, hv3] at a3
  rw [hc3] at c3
  obtain ⟨q, hq⟩ : ∃ q, leafQ cfg (cur F) (.between w x false false) = .ok q := by
    rcases leafQ_between (cfg := cfg) (F := cur F) (incLo := false) (incHi := false) hlow hl_w hl_x with h | ⟨-, h⟩
    · exact h
    · exact absurd hord h
  obtain ⟨p', r', a', -⟩ := a3.red (r := 43) (by decide +kernel) c3 [(76, _), (61, _), (38, _), (11, _)] rfl rfl rfl (by decide) (base_goto s0 hbase).2.2.2.2.2.2
    (fun p' e1 e2 e3 => by rw [← keep e1 e2]; subst e1; exact (rangeAct2 (read_ok (by omega)) (read_ok (by omega)) hl_w hl_x).trans (by rw [hq]; rfl)) (by omega)
  rw [lang_leaf hq]
  exact (Go.then (r0.trans (r1.trans (r2.trans (r3.trans r')))) (a'.toExp hbase (Or.inr (Or.inr (Or.inr (Or.inr ⟨rfl, rfl⟩)))) hroom)).cast (by simp [hc0, hc1, hc2, hc3] <;> omega)

theorem run_below_e {w : QWord} (hl_w : w.length ≤ 253) (hfine : ∀ t ∈ ts, Fine t) (hts : ts.map LexTok.spec = (QLeaf.below w false true).written)
    (a : At cfg qlen p ((s0, v0) :: st) F res n (ts ++ rest)) (hbase : s0 ∈ base10) (hroom : st.length + 7 < 10000) :
    Go cfg qlen p ((g31 s0, .q ((lang cfg).leaf (cur F) (QLeaf.below w false true))) :: (s0, v0) :: st) F res (n + calls ts) rest := by
  simp only [QLeaf.written, writtenSlop, Option.map_some, Option.map_none, Option.toList, List.cons_append, List.nil_append,
    List.append_nil, if_true, if_false, Bool.false_eq_true] at hts
  obtain ⟨t0, ts0, rfl, hs0, hts⟩ := spec_cons hts
  obtain ⟨hk0, hc0, hv0⟩ := spec_sym (hfine t0 (by simp)) hs0
  obtain ⟨t1, ts1, rfl, hs1, hts⟩ := spec_cons hts
  obtain ⟨hk1, hc1, hv1⟩ := spec_word (hfine t1 (by simp)) hs1 hl_w
  obtain ⟨t2, ts2, rfl, hs2, hts⟩ := spec_cons hts
  obtain ⟨hk2, hc2, hv2⟩ := spec_sym (hfine t2 (by simp)) hs2
  obtain rfl := spec_nil hts
  simp only [List.cons_append, List.nil_append] at a
  obtain ⟨p0, r0, a0, c0⟩ := a.shift (y := 8) (by rw [hk0]; exact (base_shift s0 hbase).2.2.2.2.2.1) (by first | omega | (simp only [List.length_cons]; omega))
  rw [hc0, hv0] at a0
  rw [hc0] at c0
  obtain ⟨p1, r1, a1, c1⟩ := a0.shift (y := 33) (by rw [hk1]; decide +kernel) (by first | omega | (simp only [List.length_cons]; omega))
  rw [hc1, hv1] at a1
  rw [hc1] at c1
  obtain ⟨p2, r2, a2, c2⟩ := a1.shift (y := 56) (by rw [hk2]; decide +kernel) (by first | omega | (simp only [List.length_cons]; omega))
  rw [hc2, hv2] at a2
  rw [hc2] at c2
  obtain ⟨q, hq⟩ := leafQ_below (cfg := cfg) (F := cur F) (inc := false) true hl_w
  obtain ⟨p', r', a', -⟩ := a2.red (r := 44) (by decide +kernel) c2 [(56, _), (33, _), (8, _)] rfl rfl rfl (by decide) (base_goto s0 hbase).2.2.2.2.2.2
    (fun p' e1 e2 e3 => by rw [← keep e1 e2]; subst e1; exact (rangeActHi true (read_ok (by omega)) hl_w).trans (by rw [hq]; rfl)) (by omega)
  rw [lang_leaf hq]
  exact (Go.then (r0.trans (r1.trans (r2.trans r'))) (a'.toExp hbase (Or.inr (Or.inr (Or.inr (Or.inr ⟨rfl, rfl⟩)))) hroom)).cast (by simp [hc0, hc1, hc2] <;> omega)

theorem run_below_i {w : QWord} (hl_w : w.length ≤ 253) (hfine : ∀ t ∈ ts, Fine t) (hts : ts.map LexTok.spec = (QLeaf.below w true true).written)
    (a : At cfg qlen p ((s0, v0) :: st) F res n (ts ++ rest)) (hbase : s0 ∈ base10) (hroom : st.length + 7 < 10000) :
    Go cfg qlen p ((g31 s0, .q ((lang cfg).leaf (cur F) (QLeaf.below w true true))) :: (s0, v0) :: st) F res (n + calls ts) rest := by
  simp only [QLeaf.written, writtenSlop, Option.map_some, Option.map_none, Option.toList, List.cons_append, List.nil_append,
    List.append_nil, if_true, if_false, Bool.false_eq_true] at hts
  obtain ⟨t0, ts0, rfl, hs0, hts⟩ := spec_cons hts
  obtain ⟨hk0, hc0, hv0⟩ := spec_sym (hfine t0 (by simp)) hs0
  obtain ⟨t1, ts1, rfl, hs1, hts⟩ := spec_cons hts
  obtain ⟨hk1, hc1, hv1⟩ := spec_word (hfine t1 (by simp)) hs1 hl_w
  obtain ⟨t2, ts2, rfl, hs2, hts⟩ := spec_cons hts
  obtain ⟨hk2, hc2, hv2⟩ := spec_sym (hfine t2 (by simp)) hs2
  obtain rfl := spec_nil hts
  simp only [List.cons_append, List.nil_append] at a
  obtain ⟨p0, r0, a0, c0⟩ := a.shift (y := 8) (by rw [hk0]; exact (base_shift s0 hbase).2.2.2.2.2.1) (by first | omega | (simp only [List.length_cons]; omega))
  rw [hc0, hv0] at a0
  rw [hc0] at c0
  obtain ⟨p1, r1, a1, c1⟩ := a0.shift (y := 33) (by rw [hk1]; decide +kernel) (by first | omega | (simp only [List.length_cons]; omega))
  rw [hc1, hv1] at a1
  rw [hc1] at c1
  obtain ⟨p2, r2, a2, c2⟩ := a1.shift (y := 55) (by rw [hk2]; decide +kernel) (by first | omega | (simp only [List.length_cons]; omega))
  rw [hc2, hv2] at a2
  rw [hc2] at c2
  obtain ⟨q, hq⟩ := leafQ_below (cfg := cfg) (F := cur F) (inc := true) true hl_w
  obtain ⟨p', r', a', -⟩ := a2.red (r := 45) (by decide +kernel) c2 [(55, _), (33, _), (8, _)] rfl rfl rfl (by decide) (base_goto s0 hbase).2.2.2.2.2.2
    (fun p' e1 e2 e3 => by rw [← keep e1 e2]; subst e1; exact (rangeActHi true (read_ok (by omega)) hl_w).trans (by rw [hq]; rfl)) (by omega)
  rw [lang_leaf hq]
  exact (Go.then (r0.trans (r1.trans (r2.trans r'))) (a'.toExp hbase (Or.inr (Or.inr (Or.inr (Or.inr ⟨rfl, rfl⟩)))) hroom)).cast (by simp [hc0, hc1, hc2] <;> omega)

theorem run_above_i {w : QWord} (hl_w : w.length ≤ 253) (hfine : ∀ t ∈ ts, Fine t) (hts : ts.map LexTok.spec = (QLeaf.above w true true).written)
    (a : At cfg qlen p ((s0, v0) :: st) F res n (ts ++ rest)) (hbase : s0 ∈ base10) (hroom : st.length + 7 < 10000) :
    Go cfg qlen p ((g31 s0, .q ((lang cfg).leaf (cur F) (QLeaf.above w true true))) :: (s0, v0) :: st) F res (n + calls ts) rest := by
  simp only [QLeaf.written, writtenSlop, Option.map_some, Option.map_none, Option.toList, List.cons_append, List.nil_append,
    List.append_nil, if_true, if_false, Bool.false_eq_true] at hts
  obtain ⟨t0, ts0, rfl, hs0, hts⟩ := spec_cons hts
  obtain ⟨hk0, hc0, hv0⟩ := spec_sym (hfine t0 (by simp)) hs0
  obtain ⟨t1, ts1, rfl, hs1, hts⟩ := spec_cons hts
  obtain ⟨hk1, hc1, hv1⟩ := spec_word (hfine t1 (by simp)) hs1 hl_w
  obtain ⟨t2, ts2, rfl, hs2, hts⟩ := spec_cons hts
  obtain ⟨hk2, hc2, hv2⟩ := spec_sym (hfine t2 (by simp)) hs2
  obtain rfl := spec_nil hts
  simp only [List.cons_append, List.nil_append] at a
  obtain ⟨p0, r0, a0, c0⟩ := a.shift (y := 10) (by rw [hk0]; exact (base_shift s0 hbase).2.2.2.2.2.2.2.1) (by first | omega | (simp only [List.length_cons]; omega))
  rw [hc0, hv0] at a0
  rw [hc0] at c0
  obtain ⟨p1, r1, a1, c1⟩ := a0.shift (y := 37) (by rw [hk1]; decide +kernel) (by first | omega | (simp only [List.length_cons]; omega))
  rw [hc1, hv1] at a1
  rw [hc1] at c1
  obtain ⟨p2, r2, a2, c2⟩ := a1.shift (y := 60) (by rw [hk2]; decide +kernel) (by first | omega | (simp only [List.length_cons]; omega))
  rw [hc2, hv2] at a2
  rw [hc2] at c2
  obtain ⟨q, hq⟩ := leafQ_above (cfg := cfg) (F := cur F) (inc := true) true hl_w
  obtain ⟨p', r', a', -⟩ := a2.red (r := 46) (by decide +kernel) c2 [(60, _), (37, _), (10, _)] rfl rfl rfl (by decide) (base_goto s0 hbase).2.2.2.2.2.2
    (fun p' e1 e2 e3 => by rw [← keep e1 e2]; subst e1; exact (rangeActLo true (read_ok (by omega)) hl_w).trans (by rw [hq]; rfl)) (by omega)
  rw [lang_leaf hq]
  exact (Go.then (r0.trans (r1.trans (r2.trans r'))) (a'.toExp hbase (Or.inr (Or.inr (Or.inr (Or.inr ⟨rfl, rfl⟩)))) hroom)).cast (by simp [hc0, hc1, hc2] <;> omega)

theorem run_above_e {w : QWord} (hl_w : w.length ≤ 253) (hfine : ∀ t ∈ ts, Fine t) (hts : ts.map LexTok.spec = (QLeaf.above w false true).written)
    (a : At cfg qlen p ((s0, v0) :: st) F res n (ts ++ rest)) (hbase : s0 ∈ base10) (hroom : st.length + 7 < 10000) :
    Go cfg qlen p ((g31 s0, .q ((lang cfg).leaf (cur F) (QLeaf.above w false true))) :: (s0, v0) :: st) F res (n + calls ts) rest := by
  simp only [QLeaf.written, writtenSlop, Option.map_some, Option.map_none, Option.toList, List.cons_append, List.nil_append,
    List.append_nil, if_true, if_false, Bool.false_eq_true] at hts
  obtain ⟨t0, ts0, rfl, hs0, hts⟩ := spec_cons hts
  obtain ⟨hk0, hc0, hv0⟩ := spec_sym (hfine t0 (by simp)) hs0
  obtain ⟨t1, ts1, rfl, hs1, hts⟩ := spec_cons hts
  obtain ⟨hk1, hc1, hv1⟩ := spec_word (hfine t1 (by simp)) hs1 hl_w
  obtain ⟨t2, ts2, rfl, hs2, hts⟩ := spec_cons hts
  obtain ⟨hk2, hc2, hv2⟩ := spec_sym (hfine t2 (by simp)) hs2
  obtain rfl := spec_nil hts
  simp only [List.cons_append, List.nil_append] at a
  obtain ⟨p0, r0, a0, c0⟩ := a.shift (y := 11) (by rw [hk0]; exact (base_shift s0 hbase).2.2.2.2.2.2.2.2) (by first | omega | (simp only [List.length_cons]; omega))
  rw [hc0, hv0] at a0
  rw [hc0] at c0
  obtain ⟨p1, r1, a1, c1⟩ := a0.shift (y := 38) (by rw [hk1]; decide +kernel) (by first | omega | (simp only [List.length_cons]; omega))
  rw [hc1, hv1] at a1
  rw [hc1] at c1
  obtain ⟨p2, r2, a2, c2⟩ := a1.shift (y := 62) (by rw [hk2]; decide +kernel) (by first | omega | (simp only [List.length_cons]; omega))
  rw [hc2, hv2] at a2
  rw [hc2] at c2
  obtain ⟨q, hq⟩ := leafQ_above (cfg := cfg) (F := cur F) (inc := false) true hl_w
  obtain ⟨p', r', a', -⟩ := a2.red (r := 47) (by decide +kernel) c2 [(62, _), (38, _), (11, _)] rfl rfl rfl (by decide) (base_goto s0 hbase).2.2.2.2.2.2
    (fun p' e1 e2 e3 => by rw [← keep e1 e2]; subst e1; exact (rangeActLo true (read_ok (by omega)) hl_w).trans (by rw [hq]; rfl)) (by omega)
  rw [lang_leaf hq]
  exact (Go.then (r0.trans (r1.trans (r2.trans r'))) (a'.toExp hbase (Or.inr (Or.inr (Or.inr (Or.inr ⟨rfl, rfl⟩)))) hroom)).cast (by simp [hc0, hc1, hc2] <;> omega)

theorem run_lt {w : QWord} (hl_w : w.length ≤ 253) (hfol : translate (headTok rest) ∈ follows) (hfine : ∀ t ∈ ts, Fine t) (hts : ts.map LexTok.spec = (QLeaf.below w false false).written)
    (a : At cfg qlen p ((s0, v0) :: st) F res n (ts ++ rest)) (hbase : s0 ∈ base10) (hroom : st.length + 7 < 10000) :
    Go cfg qlen p ((g31 s0, .q ((lang cfg).leaf (cur F) (QLeaf.below w false false))) :: (s0, v0) :: st) F res (n + calls ts) rest := by
  simp only [QLeaf.written, writtenSlop, Option.map_some, Option.map_none, Option.toList, List.cons_append, List.nil_append,
    List.append_nil, if_true, if_false, Bool.false_eq_true] at hts
  obtain ⟨t0, ts0, rfl, hs0, hts⟩ := spec_cons hts
  obtain ⟨hk0, hc0, hv0⟩ := spec_sym (hfine t0 (by simp)) hs0
  obtain ⟨t1, ts1, rfl, hs1, hts⟩ := spec_cons hts
  obtain ⟨hk1, hc1, hv1⟩ := spec_word (hfine t1 (by simp)) hs1 hl_w
  obtain rfl := spec_nil hts
  simp only [List.cons_append, List.nil_append] at a
  obtain ⟨p0, r0, a0, c0⟩ := a.shift (y := 8) (by rw [hk0]; exact (base_shift s0 hbase).2.2.2.2.2.1) (by first | omega | (simp only [List.length_cons]; omega))
  rw [hc0, hv0] at a0
  rw [hc0] at c0
  obtain ⟨p1, r1, a1, c1⟩ := a0.shift (y := 33) (by rw [hk1]; decide +kernel) (by first | omega | (simp only [List.length_cons]; omega))
  rw [hc1, hv1] at a1
  rw [hc1] at c1
  obtain ⟨q, hq⟩ := leafQ_below (cfg := cfg) (F := cur F) (inc := false) false hl_w
  obtain ⟨p', r', a'⟩ := a1.redAt (r := 48) ((follow_rules _ hfol).2.2.2.2) [(33, _), (8, _)] rfl rfl rfl (by decide) (base_goto s0 hbase).2.2.2.2.2.2
    (fun p' e1 e2 e3 => by rw [← keep e1 e2]; subst e1; exact (rangeActHi false (read_ok (by omega)) hl_w).trans (by rw [hq]; rfl)) (by omega)
  rw [lang_leaf hq]
  exact (Go.then (r0.trans (r1.trans r')) (a'.toExp hbase (Or.inr (Or.inr (Or.inr (Or.inr ⟨rfl, rfl⟩)))) hroom)).cast (by simp [hc0, hc1] <;> omega)

theorem run_le {w : QWord} (hl_w : w.length ≤ 253) (hfine : ∀ t ∈ ts, Fine t) (hts : ts.map LexTok.spec = (QLeaf.below w true false).written)
    (a : At cfg qlen p ((s0, v0) :: st) F res n (ts ++ rest)) (hbase : s0 ∈ base10) (hroom : st.length + 7 < 10000) :
    Go cfg qlen p ((g31 s0, .q ((lang cfg).leaf (cur F) (QLeaf.below w true false))) :: (s0, v0) :: st) F res (n + calls ts) rest := by
  simp only [QLeaf.written, writtenSlop, Option.map_some, Option.map_none, Option.toList, List.cons_append, List.nil_append,
    List.append_nil, if_true, if_false, Bool.false_eq_true] at hts
  obtain ⟨t0, ts0, rfl, hs0, hts⟩ := spec_cons hts
  obtain ⟨hk0, hc0, hv0⟩ := spec_sym (hfine t0 (by simp)) hs0
  obtain ⟨t1, ts1, rfl, hs1, hts⟩ := spec_cons hts
  obtain ⟨hk1, hc1, hv1⟩ := spec_sym (hfine t1 (by simp)) hs1
  obtain ⟨t2, ts2, rfl, hs2, hts⟩ := spec_cons hts
  obtain ⟨hk2, hc2, hv2⟩ := spec_word (hfine t2 (by simp)) hs2 hl_w
  obtain rfl := spec_nil hts
  simp only [List.cons_append, List.nil_append] at a
  obtain ⟨p0, r0, a0, c0⟩ := a.shift (y := 8) (by rw [hk0]; exact (base_shift s0 hbase).2.2.2.2.2.1) (by first | omega | (simp only [List.length_cons]; omega))
  rw [hc0, hv0] at a0
  rw [hc0] at c0
  obtain ⟨p1, r1, a1, c1⟩ := a0.shift (y := 34) (by rw [hk1]; decide +kernel) (by first | omega | (simp only [List.length_cons]; omega))
  rw [hc1, hv1] at a1
  rw [hc1] at c1
  obtain ⟨p2, r2, a2, c2⟩ := a1.shift (y := 57) (by rw [hk2]; decide +kernel) (by first | omega | (simp only [List.length_cons]; omega))
  rw [hc2, hv2] at a2
  rw [hc2] at c2
  obtain ⟨q, hq⟩ := leafQ_below (cfg := cfg) (F := cur F) (inc := true) false hl_w
  obtain ⟨p', r', a', -⟩ := a2.red (r := 49) (by decide +kernel) c2 [(57, _), (34, _), (8, _)] rfl rfl rfl (by decide) (base_goto s0 hbase).2.2.2.2.2.2
    (fun p' e1 e2 e3 => by rw [← keep e1 e2]; subst e1; exact (rangeActHi false (read_ok (by omega)) hl_w).trans (by rw [hq]; rfl)) (by omega)
  rw [lang_leaf hq]
  exact (Go.then (r0.trans (r1.trans (r2.trans r'))) (a'.toExp hbase (Or.inr (Or.inr (Or.inr (Or.inr ⟨rfl, rfl⟩)))) hroom)).cast (by simp [hc0, hc1, hc2] <;> omega)

theorem run_ge {w : QWord} (hl_w : w.length ≤ 253) (hfine : ∀ t ∈ ts, Fine t) (hts : ts.map LexTok.spec = (QLeaf.above w true false).written)
    (a : At cfg qlen p ((s0, v0) :: st) F res n (ts ++ rest)) (hbase : s0 ∈ base10) (hroom : st.length + 7 < 10000) :
    Go cfg qlen p ((g31 s0, .q ((lang cfg).leaf (cur F) (QLeaf.above w true false))) :: (s0, v0) :: st) F res (n + calls ts) rest := by
  simp only [QLeaf.written, writtenSlop, Option.map_some, Option.map_none, Option.toList, List.cons_append, List.nil_append,
    List.append_nil, if_true, if_false, Bool.false_eq_true] at hts
  obtain ⟨t0, ts0, rfl, hs0, hts⟩ := spec_cons hts
  obtain ⟨hk0, hc0, hv0⟩ := spec_sym (hfine t0 (by simp)) hs0
  obtain ⟨t1, ts1, rfl, hs1, hts⟩ := spec_cons hts
  obtain ⟨hk1, hc1, hv1⟩ := spec_sym (hfine t1 (by simp)) hs1
  obtain ⟨t2, ts2, rfl, hs2, hts⟩ := spec_cons hts
  obtain ⟨hk2, hc2, hv2⟩ := spec_word (hfine t2 (by simp)) hs2 hl_w
  obtain rfl := spec_nil hts
  simp only [List.cons_append, List.nil_append] at a
  obtain ⟨p0, r0, a0, c0⟩ := a.shift (y := 9) (by rw [hk0]; exact (base_shift s0 hbase).2.2.2.2.2.2.1) (by first | omega | (simp only [List.length_cons]; omega))
  rw [hc0, hv0] at a0
  rw [hc0] at c0
  obtain ⟨p1, r1, a1, c1⟩ := a0.shift (y := 36) (by rw [hk1]; decide +kernel) (by first | omega | (simp only [List.length_cons]; omega))
  rw [hc1, hv1] at a1
  rw [hc1] at c1
  obtain ⟨p2, r2, a2, c2⟩ := a1.shift (y := 58) (by rw [hk2]; decide +kernel) (by first | omega | (simp only [List.length_cons]; omega))
  rw [hc2, hv2] at a2
  rw [hc2] at c2
  obtain ⟨q, hq⟩ := leafQ_above (cfg := cfg) (F := cur F) (inc := true) false hl_w
  obtain ⟨p', r', a', -⟩ := a2.red (r := 50) (by decide +kernel) c2 [(58, _), (36, _), (9, _)] rfl rfl rfl (by decide) (base_goto s0 hbase).2.2.2.2.2.2
    (fun p' e1 e2 e3 => by rw [← keep e1 e2]; subst e1; exact (rangeActLo false (read_ok (by omega)) hl_w).trans (by rw [hq]; rfl)) (by omega)
  rw [lang_leaf hq]
  exact (Go.then (r0.trans (r1.trans (r2.trans r'))) (a'.toExp hbase (Or.inr (Or.inr (Or.inr (Or.inr ⟨rfl, rfl⟩)))) hroom)).cast (by simp [hc0, hc1, hc2] <;> omega)

theorem run_gt {w : QWord} (hl_w : w.length ≤ 253) (hfine : ∀ t ∈ ts, Fine t) (hts : ts.map LexTok.spec = (QLeaf.above w false false).written)
    (a : At cfg qlen p ((s0, v0) :: st) F res n (ts ++ rest)) (hbase : s0 ∈ base10) (hroom : st.length + 7 < 10000) :
    Go cfg qlen p ((g31 s0, .q ((lang cfg).leaf (cur F) (QLeaf.above w false false))) :: (s0, v0) :: st) F res (n + calls ts) rest := by
  simp only [QLeaf.written, writtenSlop, Option.map_some, Option.map_none, Option.toList, List.cons_append, List.nil_append,
    List.append_nil, if_true, if_false, Bool.false_eq_true] at hts
  obtain ⟨t0, ts0, rfl, hs0, hts⟩ := spec_cons hts
  obtain ⟨hk0, hc0, hv0⟩ := spec_sym (hfine t0 (by simp)) hs0
  obtain ⟨t1, ts1, rfl, hs1, hts⟩ := spec_cons hts
  obtain ⟨hk1, hc1, hv1⟩ := spec_word (hfine t1 (by simp)) hs1 hl_w
  obtain rfl := spec_nil hts
  simp only [List.cons_append, List.nil_append] at a
  obtain ⟨p0, r0, a0, c0⟩ := a.shift (y := 9) (by rw [hk0]; exact (base_shift s0 hbase).2.2.2.2.2.2.1) (by first | omega | (simp only [List.length_cons]; omega))
  rw [hc0, hv0] at a0
  rw [hc0] at c0
  obtain ⟨p1, r1, a1, c1⟩ := a0.shift (y := 35) (by rw [hk1]; decide +kernel) (by first | omega | (simp only [List.length_cons]; omega))
  rw [hc1, hv1] at a1
  rw [hc1] at c1
  obtain ⟨q, hq⟩ := leafQ_above (cfg := cfg) (F := cur F) (inc := false) false hl_w
  obtain ⟨p', r', a', -⟩ := a1.red (r := 51) (by decide +kernel) c1 [(35, _), (9, _)] rfl rfl rfl (by decide) (base_goto s0 hbase).2.2.2.2.2.2
    (fun p' e1 e2 e3 => by rw [← keep e1 e2]; subst e1; exact (rangeActLo false (read_ok (by omega)) hl_w).trans (by rw [hq]; rfl)) (by omega)
  rw [lang_leaf hq]
  exact (Go.then (r0.trans (r1.trans r')) (a'.toExp hbase (Or.inr (Or.inr (Or.inr (Or.inr ⟨rfl, rfl⟩)))) hroom)).cast (by simp [hc0, hc1] <;> omega)

end

end Ferret.QP
