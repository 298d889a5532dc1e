import Verif.Lemmas.QDriveLeaf

/-!
The query parser reads every phrase, and so every leaf.
-/

namespace Ferret.QP
open Ferret.Spec

theorem phraseOf_ok (first : Option QWord) : ∀ (m : Nat) (spots : List QSpot), spots.length ≤ m →
    (∀ a b, writtenFirst first ++ spots.flatMap QSpot.written ≠ a ++ .sym '>' :: .sym '|' :: b) →
    ∃ ph, phraseOf first spots = .ok ph := by
  intro m
  induction m with
  | zero =>
    intro spots hm _
    obtain rfl : spots = [] := List.eq_nil_of_length_eq_zero (by omega)
    exact ⟨_, rfl⟩
  | succ m ih =>
    intro spots hm hb
    rcases List.eq_nil_or_concat spots with rfl | ⟨spots', s, rfl⟩
    · exact ⟨_, rfl⟩
    rw [List.concat_eq_append] at *
    obtain ⟨ph, hph⟩ := ih spots' (by simp at hm; omega) (by
      intro a b e
      refine hb a (b ++ s.written) ?_
      rw [List.flatMap_append, ← List.append_assoc, e]
      simp)
    rw [phraseOf_snoc hph]
    match s with
    | .next w => exact ⟨_, rfl⟩
    | .gap => exact ⟨_, rfl⟩
    | .alt w =>
      rcases phMulti_ok hph w with ⟨ph', e⟩ | ⟨a, e⟩
      · exact ⟨ph', by simp only [phraseRest, e, Res.ok_bind]⟩
      · refine absurd ?_ (hb a [.word w])
        rw [List.flatMap_append, ← List.append_assoc, e]
        simp [QSpot.written]

section
variable {cfg : Cfg} {qlen : Nat} {p : PS} {F : List (List Fld)} {res : Option Qry} {n : Nat}
  {ts rest : List LexTok} {s0 : Nat} {v0 v1 : Val} {st : List (Nat × Val)}

/-- The first place of a phrase. -/
theorem run_first {first : Option QWord} (hsh : ∀ w, first = some w → w.length ≤ 253) (hfine : ∀ t ∈ ts, Fine t)
    (hts : ts.map LexTok.spec = writtenFirst first)
    (a : At cfg qlen p ((7, v1) :: (s0, v0) :: st) F res n (ts ++ rest)) (hroom : st.length + 7 < 10000) :
    Go cfg qlen p ((32, .phrase (phFirst first)) :: (7, v1) :: (s0, v0) :: st) F res (n + calls ts) rest := by
  cases first with
  | some w =>
    obtain ⟨t0, ts0, rfl, hs0, hts⟩ := spec_cons hts
    obtain rfl := spec_nil hts
    obtain ⟨hk0, hc0, hv0⟩ := spec_word (hfine t0 (by simp)) hs0 (hsh w rfl)
    obtain ⟨p0, r0, a0, c0⟩ := a.shift (y := 29) (by rw [hk0]; decide +kernel) (by simp only [List.length_cons]; omega)
    rw [hc0, hv0] at a0
    rw [hc0] at c0
    obtain ⟨p', r', a', -⟩ := a0.red (r := 35) (by decide +kernel) c0 [(29, _)] rfl rfl rfl (by decide) (lhs := 40)
      (g := 32) (by decide +kernel) (fun p' e1 e2 e3 => by rw [← keep e1 e2]; exact act35 (read_ok (by omega)))
      (by simp only [List.length_cons]; omega)
    exact Go.cast ⟨p', r0.trans r', a'⟩ (by simp [hc0])
  | none =>
    obtain ⟨t0, ts0, rfl, hs0, hts⟩ := spec_cons hts
    obtain ⟨t1, ts1, rfl, hs1, hts⟩ := spec_cons hts
    obtain rfl := spec_nil hts
    obtain ⟨hk0, hc0, hv0⟩ := spec_sym (hfine t0 (by simp)) hs0
    obtain ⟨hk1, hc1, hv1⟩ := spec_sym (hfine t1 (by simp)) hs1
    obtain ⟨p0, r0, a0, c0⟩ := a.shift (y := 31) (by rw [hk0]; decide +kernel) (by simp only [List.length_cons]; omega)
    obtain ⟨p1, r1, a1, c1⟩ := a0.shift (y := 50) (by rw [hk1]; decide +kernel) (by simp only [List.length_cons]; omega)
    obtain ⟨p', r', a', -⟩ := a1.red (r := 36) (by decide +kernel) c1 [(50, _), (31, _)] rfl rfl rfl (by decide)
      (lhs := 40) (g := 32) (v := .phrase (phFirst none)) (by decide +kernel)
      (fun p' e1 e2 e3 => by rw [← keep e1 e2]; rfl) (by simp only [List.length_cons]; omega)
    exact Go.cast ⟨p', r0.trans (r1.trans r'), a'⟩ (by simp [hc0, hc1])

/-- What follows it. -/
theorem run_spots : ∀ (spots : List QSpot) (ph ph' : Ph) (p : PS) (n : Nat) (ts : List LexTok),
    (∀ w, QTok.word w ∈ spots.flatMap QSpot.written → w.length ≤ 253) → (∀ t ∈ ts, Fine t) →
    ts.map LexTok.spec = spots.flatMap QSpot.written → phraseRest ph spots = .ok ph' →
    At cfg qlen p ((32, .phrase ph) :: (7, v1) :: (s0, v0) :: st) F res n (ts ++ rest) →
    st.length + 7 < 10000 →
    Go cfg qlen p ((32, .phrase ph') :: (7, v1) :: (s0, v0) :: st) F res (n + calls ts) rest
  | [], ph, ph', p, n, ts, _, _, hts, hph, a, _ => by
    obtain rfl := spec_nil hts
    cases hph
    exact a.go
  | .next w :: spots, ph, ph', p, n, ts, hsh, hfine, hts, hph, a, hroom => by
    obtain ⟨t0, ts0, rfl, hs0, hts⟩ := spec_cons hts
    obtain ⟨hk0, hc0, hv0⟩ := spec_word (hfine t0 (by simp)) hs0 (hsh w (by simp [QSpot.written]))
    obtain ⟨p0, r0, a0, c0⟩ := a.shift (y := 51) (by rw [hk0]; decide +kernel) (by simp only [List.length_cons]; omega)
    rw [hc0, hv0] at a0
    rw [hc0] at c0
    obtain ⟨p', r', a', -⟩ := a0.red (r := 37) (by decide +kernel) c0 [(51, _), (32, _)] rfl rfl rfl (by decide)
      (lhs := 40) (g := 32) (by decide +kernel)
      (fun p' e1 e2 e3 => by rw [← keep e1 e2]; exact act37 (read_ok (by omega)))
      (by simp only [List.length_cons]; omega)
    exact Go.cast (Go.then (r0.trans r') (run_spots spots _ ph' p' _ ts0
      (fun w h => hsh w (by rw [List.flatMap_cons]; exact List.mem_append_right _ h))
      (fun t h => hfine t (List.mem_cons_of_mem _ h)) hts hph a' hroom)) (by simp [hc0]; omega)
  | .gap :: spots, ph, ph', p, n, ts, hsh, hfine, hts, hph, a, hroom => by
    obtain ⟨t0, ts0, rfl, hs0, hts⟩ := spec_cons hts
    obtain ⟨t1, ts1, rfl, hs1, hts⟩ := spec_cons hts
    obtain ⟨hk0, hc0, hv0⟩ := spec_sym (hfine t0 (by simp)) hs0
    obtain ⟨hk1, hc1, hv1⟩ := spec_sym (hfine t1 (by simp)) hs1
    obtain ⟨p0, r0, a0, c0⟩ := a.shift (y := 54) (by rw [hk0]; decide +kernel) (by simp only [List.length_cons]; omega)
    obtain ⟨p1, r1, a1, c1⟩ := a0.shift (y := 72) (by rw [hk1]; decide +kernel) (by simp only [List.length_cons]; omega)
    obtain ⟨p', r', a', -⟩ := a1.red (r := 38) (by decide +kernel) c1 [(72, _), (54, _), (32, _)] rfl rfl rfl
      (by decide) (lhs := 40) (g := 32) (v := .phrase (phAdd ph none)) (by decide +kernel)
      (fun p' e1 e2 e3 => by rw [← keep e1 e2]; rfl) (by simp only [List.length_cons]; omega)
    exact Go.cast (Go.then (r0.trans (r1.trans r')) (run_spots spots _ ph' p' _ ts1
      (fun w h => hsh w (by rw [List.flatMap_cons]; exact List.mem_append_right _ h))
      (fun t h => hfine t (List.mem_cons_of_mem _ (List.mem_cons_of_mem _ h))) hts hph a' hroom))
      (by simp [hc0, hc1])
  | .alt w :: spots, ph, ph', p, n, ts, hsh, hfine, hts, hph, a, hroom => by
    obtain ⟨t0, ts0, rfl, hs0, hts⟩ := spec_cons hts
    obtain ⟨t1, ts1, rfl, hs1, hts⟩ := spec_cons hts
    obtain ⟨hk0, hc0, hv0⟩ := spec_sym (hfine t0 (by simp)) hs0
    obtain ⟨hk1, hc1, hv1⟩ := spec_word (hfine t1 (by simp)) hs1 (hsh w (by simp [QSpot.written]))
    obtain ⟨p0, r0, a0, c0⟩ := a.shift (y := 52) (by rw [hk0]; decide +kernel) (by simp only [List.length_cons]; omega)
    obtain ⟨p1, r1, a1, c1⟩ := a0.shift (y := 70) (by rw [hk1]; decide +kernel) (by simp only [List.length_cons]; omega)
    rw [hc1, hv1] at a1
    rw [hc1] at c1
    cases hm : phMulti ph w with
    | raise e => simp [phraseRest, hm] at hph
    | ub => simp [phraseRest, hm] at hph
    | ok ph1 =>
      simp only [phraseRest, hm, Res.ok_bind] at hph
      obtain ⟨p', r', a', -⟩ := a1.red (r := 39) (by decide +kernel) c1 [(70, _), (52, _), (32, _)] rfl rfl rfl
        (by decide) (lhs := 40) (g := 32) (by decide +kernel)
        (fun p' e1 e2 e3 => by rw [← keep e1 e2]; exact act39 (read_ok (by omega)) hm)
        (by simp only [List.length_cons]; omega)
      exact Go.cast (Go.then (r0.trans (r1.trans r')) (run_spots spots _ ph' p' _ ts1
        (fun w h => hsh w (by rw [List.flatMap_cons]; exact List.mem_append_right _ h))
        (fun t h => hfine t (List.mem_cons_of_mem _ (List.mem_cons_of_mem _ h))) hts hph a' hroom))
        (by simp [hc0, hc1]; omega)

theorem run_phrase {first : Option QWord} {spots : List QSpot} {slop : Option QWord}
    (htame : QTame (QLeaf.phrase first spots slop).written) (hfol : translate (headTok rest) ∈ follows)
    (hfine : ∀ t ∈ ts, Fine t) (hts : ts.map LexTok.spec = (QLeaf.phrase first spots slop).written)
    (a : At cfg qlen p ((s0, v0) :: st) F res n (ts ++ rest)) (hbase : s0 ∈ base10)
    (hroom : st.length + 7 < 10000) :
    Go cfg qlen p ((g31 s0, .q ((lang cfg).leaf (cur F) (QLeaf.phrase first spots slop))) :: (s0, v0) :: st) F res
      (n + calls ts) rest := by
  obtain ⟨ph, hph⟩ := phraseOf_ok first spots.length spots (Nat.le_refl _) (by
    intro x y e
    refine htame.bar (.sym '"' :: x) (y ++ .sym '"' :: writtenSlop slop) ?_
    simp only [QLeaf.written, List.append_assoc, List.cons_append, List.nil_append]
    rw [← List.append_assoc (writtenFirst first), e]
    simp)
  have hslop : ∀ w, slop = some w → qNumber w ∧ w.length ≤ 253 := by
    rintro w rfl
    refine ⟨htame.slop ([.sym '"'] ++ writtenFirst first ++ spots.flatMap QSpot.written) w [] ?_,
      htame.short w (Or.inl ?_)⟩
    · simp [QLeaf.written, writtenSlop]
    · simp [QLeaf.written, writtenSlop]
  obtain ⟨q, hq⟩ := leafQ_phrase (cfg := cfg) (F := cur F) (slop := slop) hph
    (fun w e => scanInt_number (hslop w e).1)
  rw [lang_leaf hq]
  have hsh : ∀ w, QTok.word w ∈ writtenFirst first ∨ QTok.word w ∈ spots.flatMap QSpot.written → w.length ≤ 253 := by
    intro w h
    refine htame.short w (Or.inl ?_)
    simp only [QLeaf.written, List.mem_append]
    rcases h with h | h
    · exact Or.inl (Or.inl (Or.inl (Or.inr h)))
    · exact Or.inl (Or.inl (Or.inr h))
  simp only [QLeaf.written, List.append_assoc, List.cons_append, List.nil_append] at hts
  obtain ⟨t0, ts0, rfl, hs0, hts⟩ := spec_cons hts
  obtain ⟨t1, ts0, rfl, h1, hts⟩ := spec_append hts
  obtain ⟨t2, ts0, rfl, h2, hts⟩ := spec_append hts
  obtain ⟨t3, ts0, rfl, hs3, hts⟩ := spec_cons hts
  obtain ⟨hk0, hc0, hv0⟩ := spec_sym (hfine t0 (by simp)) hs0
  obtain ⟨hk3, hc3, hv3⟩ := spec_sym (hfine t3 (by simp)) hs3
  simp only [List.cons_append, List.append_assoc] at a
  obtain ⟨p0, r0, a0, -⟩ := a.shift (y := 7) (by rw [hk0]; exact (base_shift s0 hbase).2.2.2.2.1) (by omega)
  obtain ⟨p1, r1, a1⟩ := run_first (first := first) (fun w e => hsh w (Or.inl (by simp [writtenFirst, e])))
    (fun t h => hfine t (by simp [h])) h1 a0 hroom
  obtain ⟨p2, r2, a2⟩ := run_spots spots _ ph p1 _ t2 (fun w h => hsh w (Or.inr h)) (fun t h => hfine t (by simp [h]))
    h2 hph a1 hroom
  obtain ⟨p3, r3, a3, c3⟩ := a2.shift (y := 53) (by rw [hk3]; decide +kernel) (by simp only [List.length_cons]; omega)
  have htail : ∀ {p' : PS} {m : Nat}, Reaches cfg qlen p3 p' →
      At cfg qlen p' ((21, .q q) :: (s0, v0) :: st) F res m rest →
      Go cfg qlen p ((g31 s0, .q q) :: (s0, v0) :: st) F res m rest := by
    intro p' m r a
    exact Go.then (r0.trans (r1.trans (r2.trans (r3.trans r))))
      (a.toExp hbase (Or.inr (Or.inr (Or.inr (Or.inl ⟨rfl, rfl⟩)))) hroom)
  cases slop with
  | none =>
    obtain rfl := spec_nil hts
    simp only [List.nil_append] at a3
    obtain ⟨p', r', a'⟩ := a3.redAt (r := 31) ((follow_rules _ hfol).2.2.1) [(53, _), (32, _), (7, _)] rfl rfl rfl
      (by decide) (base_goto s0 hbase).2.2.2.2.2.1
      (fun p' e1 e2 e3 => by rw [← keep e1 e2]; subst e1; exact act31 hph hq) (by omega)
    exact (htail r' a').cast (by simp [hc0, hc3]; omega)
  | some w =>
    obtain ⟨t4, ts0, rfl, hs4, hts⟩ := spec_cons hts
    obtain ⟨t5, ts0, rfl, hs5, hts⟩ := spec_cons hts
    obtain rfl := spec_nil hts
    obtain ⟨hk4, hc4, hv4⟩ := spec_sym (hfine t4 (by simp)) hs4
    obtain ⟨hk5, hc5, hv5⟩ := spec_word (hfine t5 (by simp)) hs5 (hslop w rfl).2
    simp only [List.cons_append, List.nil_append] at a3
    obtain ⟨p4, r4, a4, c4⟩ := a3.shift (y := 71) (by rw [hk4]; decide +kernel)
      (by simp only [List.length_cons]; omega)
    obtain ⟨p5, r5, a5, c5⟩ := a4.shift (y := 79) (by rw [hk5]; decide +kernel)
      (by simp only [List.length_cons]; omega)
    rw [hc5, hv5] at a5
    rw [hc5] at c5
    obtain ⟨p', r', a', -⟩ := a5.red (r := 32) (by decide +kernel) c5 [(79, _), (71, _), (53, _), (32, _), (7, _)]
      rfl rfl rfl (by decide) (base_goto s0 hbase).2.2.2.2.2.1
      (fun p' e1 e2 e3 => by rw [← keep e1 e2]; subst e1; exact act32 (read_ok (by omega)) hph hq) (by omega)
    exact (htail (r4.trans (r5.trans r')) a').cast (by simp [hc0, hc3, hc4, hc5]; omega)

/-- A leaf that goes on if a word follows: a fuzzy word without a similarity. -/
def leafOpen : QLeaf → Bool
  | .fuzzy _ none => true
  | _ => false

theorem run_leaf {l : QLeaf} (hlow : ∀ c, cfg.lower (cfg.lower c) = cfg.lower c) (htame : QTame l.written)
    (hord : QOrdered cfg.inOrder cfg.lower l.written) (hfol : translate (headTok rest) ∈ follows)
    (hopen : leafOpen l = true → translate (headTok rest) ≠ 3)
    (hfine : ∀ t ∈ ts, Fine t) (hts : ts.map LexTok.spec = l.written)
    (a : At cfg qlen p ((s0, v0) :: st) F res n (ts ++ rest)) (hbase : s0 ∈ base10)
    (hroom : st.length + 7 < 10000) :
    Go cfg qlen p ((g31 s0, .q ((lang cfg).leaf (cur F) l)) :: (s0, v0) :: st) F res (n + calls ts) rest := by
  have hs : ∀ w, QTok.word w ∈ l.written ∨ QTok.wild w ∈ l.written → w.length ≤ 253 := htame.short
  match l with
  | .word w => exact run_word (hs w (by simp [QLeaf.written])) hfol hfine hts a hbase hroom
  | .fuzzy w none =>
    exact run_fuzzy (hs w (by simp [QLeaf.written])) (hopen rfl) hfol hfine hts a hbase hroom
  | .fuzzy w (some x) =>
    exact run_fuzzySim (hs w (by simp [QLeaf.written])) (hs x (by simp [QLeaf.written])) hfine hts a hbase hroom
  | .wild w => exact run_wild (hs w (by simp [QLeaf.written])) hfine hts a hbase hroom
  | .phrase first spots slop => exact run_phrase htame hfol hfine hts a hbase hroom
  | .noPhrase none => exact run_noPhrase hfol hfine hts a hbase hroom
  | .noPhrase (some w) =>
    exact run_noPhraseSlop (hs w (by simp [QLeaf.written, writtenSlop])) hfine hts a hbase hroom
  | .between w x true true =>
    exact run_between_ii hlow (hs w (by simp [QLeaf.written])) (hs x (by simp [QLeaf.written]))
      (hord [] '[' w x _ rfl (Or.inl rfl)) hfine hts a hbase hroom
  | .between w x true false =>
    exact run_between_ie hlow (hs w (by simp [QLeaf.written])) (hs x (by simp [QLeaf.written]))
      (hord [] '[' w x _ rfl (Or.inl rfl)) hfine hts a hbase hroom
  | .between w x false true =>
    exact run_between_ei hlow (hs w (by simp [QLeaf.written])) (hs x (by simp [QLeaf.written]))
      (hord [] '{' w x _ rfl (Or.inr rfl)) hfine hts a hbase hroom
  | .between w x false false =>
    exact run_between_ee hlow (hs w (by simp [QLeaf.written])) (hs x (by simp [QLeaf.written]))
      (hord [] '{' w x _ rfl (Or.inr rfl)) hfine hts a hbase hroom
  | .below w true true => exact run_below_i (hs w (by simp [QLeaf.written])) hfine hts a hbase hroom
  | .below w false true => exact run_below_e (hs w (by simp [QLeaf.written])) hfine hts a hbase hroom
  | .below w true false => exact run_le (hs w (by simp [QLeaf.written])) hfine hts a hbase hroom
  | .below w false false => exact run_lt (hs w (by simp [QLeaf.written])) hfol hfine hts a hbase hroom
  | .above w true true => exact run_above_i (hs w (by simp [QLeaf.written])) hfine hts a hbase hroom
  | .above w false true => exact run_above_e (hs w (by simp [QLeaf.written])) hfine hts a hbase hroom
  | .above w true false => exact run_ge (hs w (by simp [QLeaf.written])) hfine hts a hbase hroom
  | .above w false false => exact run_gt (hs w (by simp [QLeaf.written])) hfine hts a hbase hroom

end

end Ferret.QP
