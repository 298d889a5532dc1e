import Verif.Model.Walk
import Verif.Lemmas.BoolQuery

namespace Ferret.Scorer
open Ferret.Spec

variable {σ S L : Type} {P : Prop}

/-! ### The term scorer, for any list of postings -/

/-- What the term scorer still has to deliver. -/
def Term.rest (t : Term) : List (Int × Nat) := t.buf.drop (t.pointer + 1) ++ t.tde

theorem term_next (t : Term) :
    match t.rest with
    | [] => ∃ t', tscNext t = .ok (false, t') ∧ t'.rest = []
    | e :: r => ∃ t', tscNext t = .ok (true, t') ∧ t'.rest = r ∧ t'.doc = e.1 ∧ t'.buf[t'.pointer]? = some e := by
  unfold Term.rest tscNext
  simp only []
  by_cases hp : t.pointer + 1 ≥ t.buf.length
  · rw [if_pos hp, List.drop_eq_nil_of_le hp, List.nil_append]
    cases ht : t.tde with
    | nil => exact ⟨_, rfl, by simp⟩
    | cons e r =>
      refine ⟨_, rfl, ?_, rfl, rfl⟩
      simp only [Nat.zero_add, List.take_succ_cons, List.drop_succ_cons, List.drop_zero, List.take_append_drop]
  · rw [if_neg hp]
    have hlt : t.pointer + 1 < t.buf.length := by omega
    have hdrop := List.drop_eq_getElem_cons hlt
    have hget := List.getElem?_eq_getElem hlt
    generalize t.buf[t.pointer + 1] = e at hdrop hget
    rw [hdrop, hget]
    exact ⟨_, rfl, rfl, rfl, hget⟩

theorem dropWhile_append_all {l m : List (Int × Nat)} {n : Int} (h : ∀ y ∈ l, y.1 < n) :
    (l ++ m).dropWhile (fun e => e.1 < n) = m.dropWhile (fun e => e.1 < n) := by
  induction l with
  | nil => rfl
  | cons a l ih =>
    rw [List.cons_append, List.dropWhile_cons_of_pos (by simpa using h a (by simp))]
    exact ih (fun y hy => h y (by simp [hy]))

theorem term_skip (t : Term) (n : Int) :
    match t.rest.dropWhile (fun e => e.1 < n) with
    | [] => ∃ t', tscSkipTo t n = .ok (false, t') ∧ t'.rest = []
    | e :: r => ∃ t', tscSkipTo t n = .ok (true, t') ∧ t'.rest = r ∧ t'.doc = e.1 ∧ t'.buf[t'.pointer]? = some e := by
  unfold Term.rest tscSkipTo
  rcases tscScan_spec t.buf n (t.buf.length + 1) t.pointer (by omega) with ⟨q, e, sk, k1, k2, k3, k4, k5⟩ | ⟨q, k1, k2, k3⟩
  · rw [k1, k4, List.append_assoc, dropWhile_append_all k5, List.cons_append,
      List.dropWhile_cons_of_neg (by simp; omega)]
    simp only [k2]
    exact ⟨_, rfl, rfl, rfl, k2⟩
  · rw [k1, dropWhile_append_all k3]
    simp only []
    cases hd : t.tde.dropWhile (fun e => decide (e.1 < n)) with
    | nil => exact ⟨_, rfl, by simp [k2]⟩
    | cons e r => exact ⟨_, rfl, by simp, rfl, rfl⟩

theorem term_score (A : Arith S) (tfw : Nat → S) (norm : Int → S) (t : Term) {e : Int × Nat} (h : t.buf[t.pointer]? = some e) (hd : t.doc = e.1) :
    tscScore A tfw norm t = .ok (A.mul (tfw e.2) (norm e.1), 0, t) := by
  unfold tscScore
  simp only [h, hd]
  by_cases h32 : e.2 < 32
  · rw [if_pos h32]
    have : ((List.range 32).map tfw)[e.2]? = some (tfw e.2) := by
      rw [List.getElem?_map, List.getElem?_range h32]; rfl
    rw [this]
  · rw [if_neg h32]

theorem runAll_term (A : Arith S) (tfw : Nat → S) (norm : Int → S) : ∀ (ms : List Move) (t : Term),
    runAll (termOps A) ⟨t, tfw, norm⟩ ms =
      .ok ((walk t.rest ms).map (Option.map fun e => (e.1, A.mul (tfw e.2) (norm e.1)))) := by
  intro ms
  induction ms with
  | nil => intro t; rfl
  | cons m ms ih =>
    intro t
    have key : match m.from t.rest with
        | [] => ∃ t', callMove (termOps A) ⟨t, tfw, norm⟩ m = .ok (false, ⟨t', tfw, norm⟩) ∧ t'.rest = []
        | e :: r => ∃ t', callMove (termOps A) ⟨t, tfw, norm⟩ m = .ok (true, ⟨t', tfw, norm⟩) ∧ t'.rest = r ∧ t'.doc = e.1 ∧ t'.buf[t'.pointer]? = some e := by
      cases m with
      | next =>
        have := term_next t
        simp only [Move.from]
        cases hr : t.rest with
        | nil =>
          rw [hr] at this
          obtain ⟨t', h1, h2⟩ := this
          exact ⟨t', by simp only [callMove, termOps, h1, Res.ok_bind], h2⟩
        | cons e r =>
          rw [hr] at this
          obtain ⟨t', h1, h2⟩ := this
          exact ⟨t', by simp only [callMove, termOps, h1, Res.ok_bind], h2⟩
      | skip n =>
        have := term_skip t n
        simp only [Move.from]
        cases hr : t.rest.dropWhile (fun e => decide (e.1 < n)) with
        | nil =>
          rw [hr] at this
          obtain ⟨t', h1, h2⟩ := this
          exact ⟨t', by simp only [callMove, termOps, h1, Res.ok_bind], h2⟩
        | cons e r =>
          rw [hr] at this
          obtain ⟨t', h1, h2⟩ := this
          exact ⟨t', by simp only [callMove, termOps, h1, Res.ok_bind], h2⟩
    rw [runAll, walk]
    cases hf : m.from t.rest with
    | nil =>
      rw [hf] at key
      obtain ⟨t', h1, h2⟩ := key
      rw [h1, Res.ok_bind, if_neg (by simp), ih, Res.ok_bind, h2]
      rfl
    | cons e r =>
      rw [hf] at key
      obtain ⟨t', h1, h2, h3, h4⟩ := key
      rw [h1, Res.ok_bind, if_pos rfl]
      have hsc : (termOps A).score ⟨t', tfw, norm⟩ = .ok (A.mul (tfw e.2) (norm e.1), 0, ⟨t', tfw, norm⟩) := by
        simp only [termOps, term_score A tfw norm t' h4 h3, Res.ok_bind]
      simp only [hsc, Res.ok_bind, ih, h2, List.map_cons, Option.map_some]
      simp [termOps, h3]

/-! ### Any scorer that keeps the contract -/

theorem from_sorted {l : List (Int × S)} {lo : Int} {v : View S} (hs : (l.map (·.1)).Pairwise (· < ·)) (hm : ∀ d, d ∈ l.map (·.1) ↔ (v.docs d = true ∧ lo < d)) (n : Int) (hn : lo < n) :
    match l.dropWhile (fun e => e.1 < n) with
    | [] => ∀ x, v.docs x = true → x ≤ n - 1
    | e :: rest => NextAfter v (n - 1) e.1 ∧ (rest.map (·.1)).Pairwise (· < ·) ∧ (∀ d, d ∈ rest.map (·.1) ↔ (v.docs d = true ∧ e.1 < d)) ∧ e ∈ l ∧ ∀ x ∈ rest, x ∈ l := by
  induction l generalizing lo with
  | nil =>
    intro x hx
    have := hm x
    simp only [List.map_nil, List.not_mem_nil, false_iff, not_and] at this
    have := this hx; omega
  | cons a l ih =>
    have hp := List.pairwise_cons.mp hs
    have ha := (hm a.1).mp (by simp)
    have hrest : ∀ d, d ∈ l.map (·.1) ↔ (v.docs d = true ∧ a.1 < d) := by
      intro d
      have := hm d
      simp only [List.map_cons, List.mem_cons] at this
      constructor
      · intro hd; exact ⟨(this.mp (.inr hd)).1, hp.1 d hd⟩
      · rintro ⟨h1, h2⟩
        rcases this.mpr ⟨h1, by omega⟩ with h3 | h3
        · omega
        · exact h3
    by_cases h : a.1 < n
    · rw [List.dropWhile_cons_of_pos (by simpa using h)]
      have := ih hp.2 hrest h
      cases hd : l.dropWhile (fun e => decide (e.1 < n)) with
      | nil => rw [hd] at this; exact this
      | cons e r =>
        rw [hd] at this
        exact ⟨this.1, this.2.1, this.2.2.1, List.mem_cons_of_mem _ this.2.2.2.1, fun x hx => List.mem_cons_of_mem _ (this.2.2.2.2 x hx)⟩
    · rw [List.dropWhile_cons_of_neg (by simpa using h)]
      refine ⟨⟨ha.1, by omega, fun x hx hx2 => ?_⟩, hp.2, hrest, by simp, fun x hx => by simp [hx]⟩
      have := (hm x).mpr ⟨hx, by omega⟩
      simp only [List.map_cons, List.mem_cons] at this
      rcases this with h3 | h3
      · omega
      · have := hp.1 x h3; simp only at this; omega

theorem NextAfter.uniq {v : View S} {m a b : Int} (h1 : NextAfter v m a) (h2 : NextAfter v m b) : a = b := by
  have := h1.2.2 b h2.1 h2.2.1
  have := h2.2.2 a h1.1 h1.2.1
  omega

/-- What a run may answer for a walk: the same documents, and the exact score where one was
asked for and arithmetic is exact. -/
def Agree (P : Prop) (ms : List (Move × Bool)) (out : List (Option (Int × Option S))) (w : List (Option (Int × S))) : Prop :=
  out.map (Option.map (·.1)) = w.map (Option.map (·.1)) ∧
  (P → out = (w.zip (ms.map (·.2))).map fun p => p.1.map fun e => (e.1, if p.2 then some e.2 else none))

theorem runStop_spec {o : Ops σ S} {R} (g : Good P o R) : ∀ (ms : List (Move × Bool)) {s : σ} {v : View S} {lo b} (l : List (Int × S)),
    R s v lo b → v.skips = true → (l.map (·.1)).Pairwise (· < ·) → (∀ d, d ∈ l.map (·.1) ↔ (v.docs d = true ∧ lo < d)) → (P → ∀ e ∈ l, e.2 = v.sc e.1) →
    ahead lo l (ms.map (·.1)) → ∃ out, runStop o s ms = .ok out ∧ Agree P ms out (walkStop l (ms.map (·.1))) := by
  intro ms
  induction ms with
  | nil => intro s v lo b l _ _ _ _ _ _; exact ⟨[], rfl, rfl, fun _ => rfl⟩
  | cons m ms ih =>
    intro s v lo b l h hsk hs hm hsc ha
    obtain ⟨mv, fl⟩ := m
    have key : ∃ lo', lo ≤ lo' ∧ (∃ r, callMove o s mv = .ok r ∧ Moved o R v lo' s r) ∧ mv.from l = l.dropWhile (fun e => e.1 < lo' + 1) := by
      cases mv with
      | next =>
        refine ⟨lo, Int.le_refl _, g.next h, ?_⟩
        simp only [Move.from]
        cases l with
        | nil => rfl
        | cons a l =>
          have := (hm a.1).mp (by simp)
          rw [List.dropWhile_cons_of_neg (by simp; omega)]
      | skip n =>
        have hn : lo < n := ha.1 n rfl
        refine ⟨n - 1, by omega, g.skip h hsk hn, ?_⟩
        simp [Move.from]
    obtain ⟨lo', hlo', ⟨r, r1, r2⟩, hfrom⟩ := key
    have hfs := from_sorted hs hm (lo' + 1) (by omega)
    simp only [List.map_cons, walkStop]
    simp only [List.map_cons, ahead] at ha
    rw [runStop, r1, Res.ok_bind]
    rw [show (lo' + 1 - 1) = lo' by omega] at hfs
    rcases r2 with ⟨e1, d, e2, e3, e4⟩ | ⟨e1, e2⟩
    · rw [if_pos e1]
      have hd0 : 0 ≤ d := by have := (g.lo h).1; have := e2.2.1; omega
      cases hd : l.dropWhile (fun e => decide (e.1 < lo' + 1)) with
      | nil =>
        rw [hd] at hfs
        have := hfs d e2.1
        have := e2.2.1
        omega
      | cons e rest =>
        rw [hd] at hfs
        obtain ⟨f1, f2, f3, f4, f5⟩ := hfs
        have hde : d = e.1 := NextAfter.uniq e2 f1
        subst hde
        rw [hfrom, hd] at ha ⊢
        have hdoc := g.doc e3 hd0
        simp only []
        have hrec : ∀ {s' : σ} {b'}, R s' v e.1 b' → ∃ out, runStop o s' ms = .ok out ∧ Agree P ms out (walkStop rest (ms.map (·.1))) :=
          fun hR => ih rest hR hsk f2 f3 (fun hp x hx => hsc hp x (f5 x hx)) ha.2
        cases fl with
        | true =>
          simp only [if_true]
          obtain ⟨x, s', k1, k2, k3, k4⟩ := g.score e3 hd0
          rw [k1, Res.ok_bind]
          obtain ⟨out, i1, i2, i3⟩ := hrec k3
          rw [i1, Res.ok_bind, hdoc]
          refine ⟨_, rfl, ?_, fun hp => ?_⟩
          · simp [i2]
          · rw [i3 hp]; simp [k2 hp, hsc hp e f4]
        | false =>
          rw [if_neg (by simp)]
          obtain ⟨out, i1, i2, i3⟩ := hrec e3
          rw [i1, Res.ok_bind, hdoc]
          refine ⟨_, rfl, ?_, fun hp => ?_⟩
          · simp [i2]
          · rw [i3 hp]; simp
    · rw [if_neg (by simp [e1])]
      cases hd : l.dropWhile (fun e => decide (e.1 < lo' + 1)) with
      | cons e rest =>
        rw [hd] at hfs
        have := e2 e.1 hfs.1.1
        have := hfs.1.2.1
        omega
      | nil =>
        rw [hfrom, hd]
        exact ⟨_, rfl, rfl, fun _ => by simp⟩

/-! ### Multi-searcher -/

/-- All matches of the sub-searchers, renumbered. -/
def allMatches : List (Nat × List Int) → Int → List Int
  | [], _ => []
  | (n, m) :: ss, start => m.map (· + start) ++ allMatches ss (start + n)

/-- A sub-searcher whose matches are `m`. -/
def USub.OK (s : USub) (m : List Int) : Prop :=
  (∀ d ∈ m, 0 ≤ d ∧ d < s.size) ∧
  ∀ limit offset, 1 ≤ limit → 0 ≤ offset → s.run limit offset = .ok ((m.filter (offset ≤ ·)).take limit)

theorem mseaUnscored_spec : ∀ (ss : List USub) (ms : List (Nat × List Int)) (start : Int) (limit : Nat) (offset : Int),
    All2 (fun s m => s.size = m.1 ∧ s.OK m.2) ss ms →
    mseaUnscored ss start limit offset = .ok (((allMatches ms start).filter (offset ≤ ·)).take limit) := by
  intro ss ms start limit offset h
  induction h generalizing start limit with
  | nil => simp [mseaUnscored, allMatches]
  | @cons s m ss ms h1 h2 ih =>
    obtain ⟨n, m⟩ := m
    obtain ⟨rfl, hb, hr⟩ := h1
    simp only [mseaUnscored, allMatches]
    by_cases hl : 0 < limit
    · rw [if_pos hl, List.filter_append]
      by_cases ho : offset < start + s.size
      · rw [if_pos ho, hr limit _ (by omega) (by split <;> omega), Res.ok_bind, ih, Res.ok_bind, List.take_append]
        have hf : (m.map (· + start)).filter (offset ≤ ·) = (m.filter ((if offset > start then offset - start else 0) ≤ ·)).map (· + start) := by
          rw [List.filter_map]
          congr 1
          apply List.filter_congr
          intro x hx
          have := hb x hx
          simp only [Function.comp]
          rw [decide_eq_decide]
          split <;> omega
        rw [hf, ← List.map_take]
        simp only [List.length_map, List.length_take]
        congr 3
        omega
      · rw [if_neg ho]
        have hf : (m.map (· + start)).filter (offset ≤ ·) = [] := by
          rw [List.filter_eq_nil_iff]
          intro x hx
          obtain ⟨y, hy, rfl⟩ := List.mem_map.mp hx
          have := hb y hy
          simp; omega
        rw [hf, List.nil_append]
        exact ih _ _
    · rw [if_neg hl, show limit = 0 by omega]; rfl

end Ferret.Scorer
