import Verif.Lemmas.Expand
import Verif.Props.C41
import Verif.Props.C44

/-! C42: the terms that prefix, wildcard, fuzzy and range queries expand to. -/

namespace Ferret.Props
open Ferret Ferret.Spec Ferret.Expand

/-- The terms of a field, as the index keeps them: in strictly increasing order of their bytes. -/
def Sorted (terms : List Term) : Prop := terms.Pairwise fun a b => a < b

theorem sorted_strLt {terms : List Term} (h : Sorted terms) : terms.Pairwise (fun a b => strLt a b = true) :=
  h.imp fun hab => (strLt_iff _ _).2 hab

/-- `kept` is what a limit of `k` leaves of the scored terms `l`: `k` of them if there are so many and
all of them otherwise, and none left out has a greater score than one kept. -/
def Limited (k : Nat) (l kept : List (Term × Int)) : Prop :=
  ∃ dropped, (kept ++ dropped).Perm l ∧ kept.length = min k l.length ∧ ∀ a ∈ kept, ∀ b ∈ dropped, b.2 ≤ a.2

theorem headD_tail_takeWhile (r : List Term) (p : Term → Bool) (h : r = [] → True) (f : Term → Int) :
    (((r.headD [] :: r.tail).takeWhile p).map fun t => (t, f t)).filter (fun x => decide (0 < x.2 ∧ x.1 ≠ [])) =
      ((r.takeWhile p).map fun t => (t, f t)).filter (fun x => decide (0 < x.2 ∧ x.1 ≠ [])) := by
  cases r with
  | cons t ts => rfl
  | nil =>
    simp only [List.headD_nil, List.tail_nil, List.takeWhile_nil, List.map_nil, List.filter_nil, List.takeWhile_cons]
    split
    · simp
    · rfl

theorem one_pos : (0 : Int) < one := by decide

theorem filter_map_one (l : List Term) :
    (l.map fun t => (t, one)).filter (fun x => decide (0 < x.2 ∧ x.1 ≠ [])) = (l.filter fun t => decide (t ≠ [])).map fun t => (t, one) := by
  rw [List.filter_map]
  congr 1
  apply List.filter_congr
  intro t _
  simp [one_pos]

theorem strncmpEq_decide (p : Term) : (fun t => strncmpEq t p) = fun t => decide (p <+: t) := by
  funext t
  cases h : strncmpEq t p with
  | true => exact (decide_eq_true ((strncmpEq_iff _ _).1 h)).symm
  | false => exact (decide_eq_false fun hp => by rw [(strncmpEq_iff _ _).2 hp] at h; cases h).symm

/-- **C42, prefix queries.** A prefix query becomes a query for the terms of the field that have the
prefix (and are not empty), each with weight 1: all of them if there are at most `k`, else `k` of them.
It keeps its boost. -/
theorem c42_prefix (terms : List Term) (hs : Sorted terms) (pre : Term) (k : Nat) (hk : 0 < k) (boost : Int) :
    ∃ q, prqRewrite (some terms) pre k boost = .ok q ∧ q.boost = boost ∧
      Limited k ((terms.filter fun t => pre <+: t ∧ t ≠ []).map fun t => (t, one)) q.terms.heap := by
  obtain ⟨q, rest, e, hb, hq⟩ := addAll_kept hk ((((termsFrom terms pre).headD [] :: (termsFrom terms pre).tail).takeWhile fun t => strncmpEq t pre).map fun t => (t, one))
    (mtqNew_kept hk 0 boost)
  refine ⟨q, ?_, hb, rest, ?_⟩
  · unfold prqRewrite mtqNew
    rw [if_neg (by omega)]
    simp only [Res.ok_bind]
    rw [prqLoop_eq]
    exact e
  · rw [List.nil_append, headD_tail_takeWhile _ _ (fun _ => trivial), takeWhile_prefix _ _ (sorted_strLt hs), filter_map_one, List.filter_filter] at hq
    have hf : (terms.filter fun t => decide (t ≠ []) && strncmpEq t pre) = terms.filter fun t => decide (pre <+: t ∧ t ≠ []) := by
      apply List.filter_congr
      intro t _
      rw [show strncmpEq t pre = decide (pre <+: t) from congrFun (strncmpEq_decide pre) t, Bool.and_comm]
      exact (Bool.decide_and ..).symm
    rw [hf] at hq
    exact ⟨hq.perm, hq.len, hq.best⟩

/-- Without the field there are no terms. -/
theorem c42_prefix_no_field (pre : Term) (k : Nat) (hk : 0 < k) (boost : Int) :
    ∃ q, prqRewrite none pre k boost = .ok q ∧ q.terms.heap = [] := by
  refine ⟨⟨PQ.new k, 0, boost⟩, ?_, rfl⟩
  unfold prqRewrite mtqNew
  rw [if_neg (by omega)]
  rfl

theorem glob_append_lit : ∀ (lit rest t : List Byte), (∀ c ∈ lit, c ≠ 63 ∧ c ≠ 42) → (Glob (lit ++ rest) t ↔ ∃ t', t = lit ++ t' ∧ Glob rest t') := by
  intro lit
  induction lit with
  | nil => intro rest t _; exact ⟨fun h => ⟨t, rfl, h⟩, fun ⟨t', e, h⟩ => by rw [e]; exact h⟩
  | cons c lit ih =>
    intro rest t hl
    have hc := hl c (List.mem_cons_self ..)
    rw [List.cons_append, glob_cons]
    constructor
    · rintro ⟨r, t', rfl, hf, hg⟩
      simp only [fills, hc.1, hc.2, if_false] at hf
      subst hf
      obtain ⟨t'', rfl, h⟩ := (ih rest t' fun x hx => hl x (List.mem_cons_of_mem _ hx)).1 hg
      exact ⟨t'', rfl, h⟩
    · rintro ⟨t', rfl, h⟩
      exact ⟨[c], lit ++ t', rfl, by simp [fills, hc.1, hc.2], (ih rest _ fun x hx => hl x (List.mem_cons_of_mem _ hx)).2 ⟨t', rfl, h⟩⟩

theorem glob_lit (p t : List Byte) (h : ∀ c ∈ p, c ≠ 63 ∧ c ≠ 42) : Glob p t ↔ t = p := by
  have := glob_append_lit p [] t h
  rw [List.append_nil] at this
  rw [this]
  constructor
  · rintro ⟨t', rfl, hg⟩; cases hg; simp
  · rintro rfl; exact ⟨[], by simp, .nil⟩

/-- The terms of the field that match a pattern, without the empty one. -/
def IsMatches (terms : List Term) (pattern : Term) (l : List Term) : Prop :=
  l.Sublist terms ∧ ∀ t, t ∈ l ↔ t ∈ terms ∧ Glob pattern t ∧ t ≠ []

/-- **C42, wildcard queries.** A pattern without `?` and `*` becomes a query for that very term;
another pattern (whose part before the first of them has less than 255 bytes) a query for the terms
that match it: all of them if there are at most `k`, else `k` of them. -/
theorem c42_wildcard_partial (terms : List Term) (hs : Sorted terms) (pattern : Term) (k : Nat) (hk : 0 < k) (boost : Int)
    (hlen : (pattern.takeWhile fun c => c ≠ 63 ∧ c ≠ 42).length < 255) :
    (wcqRewrite (some terms) pattern k boost = .ok (.term pattern boost) ∧ ∀ t, Glob pattern t ↔ t = pattern) ∨
    (∃ q l, wcqRewrite (some terms) pattern k boost = .ok (.multi q) ∧ IsMatches terms pattern l ∧
      Limited k (l.map fun t => (t, one)) q.terms.heap) := by
  have hsplit : pattern.takeWhile (fun c => decide (c ≠ 63 ∧ c ≠ 42)) ++ pattern.dropWhile (fun c => decide (c ≠ 63 ∧ c ≠ 42)) = pattern := List.takeWhile_append_dropWhile
  have hlit : ∀ c ∈ pattern.takeWhile (fun c => decide (c ≠ 63 ∧ c ≠ 42)), c ≠ 63 ∧ c ≠ 42 := by
    intro c hc
    have : (pattern.takeWhile (fun c => decide (c ≠ 63 ∧ c ≠ 42))).all (fun c => decide (c ≠ 63 ∧ c ≠ 42)) = true := List.all_takeWhile
    rw [List.all_eq_true] at this
    simpa using this c hc
  unfold wcqRewrite
  dsimp only
  generalize pattern.takeWhile (fun c => decide (c ≠ 63 ∧ c ≠ 42)) = pre at *
  generalize pattern.dropWhile (fun c => decide (c ≠ 63 ∧ c ≠ 42)) = pat at *
  by_cases hpat : pat = []
  · left
    rw [if_pos hpat]
    refine ⟨rfl, fun t => glob_lit pattern t ?_⟩
    rw [hpat, List.append_nil] at hsplit
    rw [← hsplit]; exact hlit
  · right
    rw [if_neg hpat]
    unfold mtqNew
    rw [if_neg (by omega)]
    simp only [Res.ok_bind]
    rw [if_neg (by omega), wcqLoop_eq]
    obtain ⟨q, rest, e, -, hq⟩ := addAll_kept hk (((((termsFrom terms pre).headD [] :: (termsFrom terms pre).tail).takeWhile fun t => strncmpEq t pre).filter fun t => wcMatch pat (t.drop pre.length)).map fun t => (t, one))
      (mtqNew_kept hk 0 one)
    rw [e, Res.ok_bind]
    refine ⟨q, terms.filter fun t => decide (t ≠ []) && (wcMatch pat (t.drop pre.length) && strncmpEq t pre), rfl, ?_, rest, ?_⟩
    · refine ⟨List.filter_sublist .., fun t => ?_⟩
      rw [List.mem_filter, Bool.and_eq_true, Bool.and_eq_true, decide_eq_true_eq, c41_wildcard, strncmpEq_iff]
      rw [← hsplit, glob_append_lit _ _ _ hlit]
      constructor
      · rintro ⟨hm, hne, hg, t', rfl⟩
        rw [List.drop_left] at hg
        exact ⟨hm, ⟨t', rfl, hg⟩, hne⟩
      · rintro ⟨hm, ⟨t', rfl, hg⟩, hne⟩
        exact ⟨hm, hne, by rwa [List.drop_left], t', rfl⟩
    · have : ((((termsFrom terms pre).headD [] :: (termsFrom terms pre).tail).takeWhile fun t => strncmpEq t pre).filter fun t => wcMatch pat (t.drop pre.length)).filter (fun t => decide (t ≠ [])) =
          terms.filter fun t => decide (t ≠ []) && (wcMatch pat (t.drop pre.length) && strncmpEq t pre) := by
        have h2 : ∀ r : List Term, ((((r.headD [] :: r.tail).takeWhile fun t => strncmpEq t pre).filter fun t => wcMatch pat (t.drop pre.length)).filter fun t => decide (t ≠ [])) =
            (((r.takeWhile fun t => strncmpEq t pre).filter fun t => wcMatch pat (t.drop pre.length)).filter fun t => decide (t ≠ [])) := by
          intro r
          cases r with
          | cons t ts => rfl
          | nil =>
            rw [List.filter_filter, List.filter_filter]
            simp only [List.headD_nil, List.tail_nil, List.takeWhile_nil, List.filter_nil, List.takeWhile_cons]
            split <;> simp
        rw [h2, takeWhile_prefix _ _ (sorted_strLt hs)]
        simp only [List.filter_filter, Bool.and_assoc]
      rw [List.nil_append, filter_map_one, this] at hq
      exact ⟨hq.perm, hq.len, hq.best⟩

/-- What is missing: a longer prefix is written past the end of a buffer. -/
theorem c42_long_prefix (terms : List Term) (k : Nat) (hk : 0 < k) (boost : Int) (lit : List Byte) (h : ∀ c ∈ lit, c ≠ 63 ∧ c ≠ 42) (hlen : 255 ≤ lit.length) :
    wcqRewrite (some terms) (lit ++ [42]) k boost = .ub := by
  have h1 : (lit ++ [42]).takeWhile (fun c => decide (c ≠ 63 ∧ c ≠ 42)) = lit := by
    rw [List.takeWhile_append_of_pos (by simpa using h)]
    simp
  have h2 : (lit ++ [42]).dropWhile (fun c => decide (c ≠ 63 ∧ c ≠ 42)) = [42] := by
    rw [List.dropWhile_append_of_pos (by simpa using h)]
    decide
  unfold wcqRewrite
  dsimp only
  rw [h1, h2, if_neg (by simp)]
  unfold mtqNew
  rw [if_neg (by omega)]
  simp only [Res.ok_bind]
  rw [if_pos hlen]

/-- **C42, fuzzy queries.** A fuzzy query becomes a query for the terms that share the first `n` bytes
of its term and score above the least similarity, each weighted by its score: all of them if there
are at most `k`, else `k` with the best scores. Scores are those of C44. -/
theorem c42_fuzzy (val : Score → Int) (maxd : Nat → Int) (terms : List Term) (hs : Sorted terms) (term : Term) (n k : Nat) (hn : n < term.length) (hk : 0 < k) (minSim : Int) :
    ∃ sc : Term → Score, (∀ t, fuzqScore maxd n (term.drop n) (t.drop n) = .ok (sc t)) ∧
    ∃ q, fuzqRewrite val maxd (some terms) term n k minSim = .ok (.multi q) ∧
      Limited k (((terms.filter fun t => term.take n <+: t ∧ t ≠ []).map fun t => (t, val (sc t))).filter fun x => decide (minSim < x.2)) q.terms.heap := by
  have hl : (term.take n).length = n := by rw [List.length_take]; omega
  have hsc : ∀ t : Term, ∃ sc, fuzqScore maxd n (term.drop n) (t.drop n) = .ok sc := by
    intro t
    obtain ⟨sc, e, -⟩ := c44_fuzzy maxd (term.take n) (term.drop n) (t.drop n)
    rw [hl] at e
    exact ⟨sc, e⟩
  obtain ⟨sc, hsc⟩ := Classical.axiomOfChoice hsc
  refine ⟨sc, hsc, ?_⟩
  have hr : ∀ r : List Term, (r = termsFrom terms (term.take n) ∨ (n = 0 ∧ r = [] :: terms)) →
      ((((r.headD [] :: r.tail).takeWhile fun t => strncmpEq t (term.take n)).map fun t => (t, val (sc t))).filter fun x => decide (minSim < x.2 ∧ x.1 ≠ [])) =
      ((terms.filter fun t => term.take n <+: t ∧ t ≠ []).map fun t => (t, val (sc t))).filter fun x => decide (minSim < x.2) := by
    intro r hr
    have h1 : (((r.headD [] :: r.tail).takeWhile fun t => strncmpEq t (term.take n)).filter fun t => decide (t ≠ [])) = terms.filter fun t => decide (term.take n <+: t ∧ t ≠ []) := by
      have hf : (fun t : Term => decide (term.take n <+: t ∧ t ≠ [])) = fun t => decide (t ≠ []) && strncmpEq t (term.take n) := by
        funext t
        rw [show strncmpEq t (term.take n) = decide (term.take n <+: t) from congrFun (strncmpEq_decide _) t, Bool.and_comm]
        exact Bool.decide_and ..
      rw [hf, ← List.filter_filter, ← takeWhile_prefix _ _ (sorted_strLt hs)]
      rcases hr with rfl | ⟨rfl, rfl⟩
      · cases htf : termsFrom terms (term.take n) with
        | cons t ts => rfl
        | nil =>
          simp only [List.headD_nil, List.tail_nil, List.takeWhile_nil, List.filter_nil, List.takeWhile_cons]
          split <;> simp
      · have hall : ∀ l : List Term, l.takeWhile (fun t => strncmpEq t (term.take 0)) = l := by
          intro l
          induction l with
          | nil => rfl
          | cons x l ih => rw [List.takeWhile_cons_of_pos (p := fun t => strncmpEq t (term.take 0)) (by cases x <;> rfl), ih]
        have hd : ∀ l : List Term, termsFrom l (term.take 0) = l := by
          intro l
          cases l with
          | nil => rfl
          | cons x l => unfold termsFrom; rw [List.dropWhile_cons_of_neg]; cases x <;> simp [strLt]
        rw [hall, hall, hd]
        simp
    rw [← h1, List.filter_map, List.filter_map, List.filter_filter]
    congr 1
    apply List.filter_congr
    intro t _
    simp
  unfold fuzqRewrite
  dsimp only
  rw [if_neg (by omega)]
  unfold mtqNew
  rw [if_neg (by omega)]
  simp only [Res.ok_bind]
  generalize hrr : (if n > 0 then termsFrom terms (term.take n) else [] :: terms) = r
  have hr' : r = termsFrom terms (term.take n) ∨ (n = 0 ∧ r = [] :: terms) := by
    by_cases h0 : n > 0
    · rw [if_pos h0] at hrr; exact Or.inl hrr.symm
    · rw [if_neg h0] at hrr; exact Or.inr ⟨by omega, hrr.symm⟩
  rw [fuzqLoop_eq val maxd (term.take n) (term.drop n) sc (by rw [hl]; exact hsc)]
  obtain ⟨q, rest, e, -, hq⟩ := addAll_kept hk (((r.headD [] :: r.tail).takeWhile fun t => strncmpEq t (term.take n)).map fun t => (t, val (sc t))) (mtqNew_kept hk minSim one)
  rw [e, Res.ok_bind]
  rw [List.nil_append, hr r hr'] at hq
  exact ⟨q, rfl, rest, hq.perm, hq.len, hq.best⟩

/-! ### Ranges -/

/-- A term lies in a range. -/
def InRange (r : Range) (t : Term) : Prop :=
  (∀ l, r.lower = some l → l < t ∨ (r.includeLower = true ∧ t = l)) ∧ (∀ u, r.upper = some u → t < u ∨ (r.includeUpper = true ∧ t = u))

theorem strcmp_pos {s t : Term} : strcmp s t > 0 ↔ t < s := by
  unfold strcmp
  split
  · rename_i h
    constructor
    · intro h; omega
    · intro h2; exact absurd ((strLt_iff _ _).1 h) (List.lt_asymm h2)
  · split
    · rename_i h; exact ⟨fun _ => (strLt_iff _ _).1 h, fun _ => by decide⟩
    · rename_i h; exact ⟨(fun h => by omega), fun h2 => absurd ((strLt_iff _ _).2 h2) h⟩

theorem strcmp_neg {s t : Term} : strcmp s t < 0 ↔ s < t := by
  unfold strcmp
  split
  · rename_i h; exact ⟨fun _ => (strLt_iff _ _).1 h, fun _ => by decide⟩
  · rename_i h
    constructor
    · intro h; split at h <;> omega
    · intro h2; exact absurd ((strLt_iff _ _).2 h2) h

theorem strcmp_le {s t : Term} : strcmp s t ≤ 0 ↔ ¬ t < s := by
  rw [← strcmp_pos]; omega

/-- The documents selected by a predicate on the terms. -/
def Selected (terms : List (Term × List Nat)) (p : Term → Prop) (d : Nat) : Prop := ∃ x ∈ terms, p x.1 ∧ d ∈ x.2

theorem eq_of_not_lt {s t : Term} (h1 : ¬ s < t) (h2 : ¬ t < s) : s = t :=
  strLt_total s t (Bool.eq_false_iff.2 fun h => h1 ((strLt_iff _ _).1 h)) (Bool.eq_false_iff.2 fun h => h2 ((strLt_iff _ _).1 h))

theorem selected_cons {x : Term × List Nat} {ts : List (Term × List Nat)} {p : Term → Prop} {d : Nat} :
    Selected (x :: ts) p d ↔ (p x.1 ∧ d ∈ x.2) ∨ Selected ts p d := by
  simp [Selected]

theorem selected_congr {ts : List (Term × List Nat)} {p p' : Term → Prop} {d : Nat} (h : ∀ x ∈ ts, p x.1 ↔ p' x.1) : Selected ts p d ↔ Selected ts p' d :=
  ⟨fun ⟨x, hx, hp, hd⟩ => ⟨x, hx, (h x hx).1 hp, hd⟩, fun ⟨x, hx, hp, hd⟩ => ⟨x, hx, (h x hx).2 hp, hd⟩⟩

open BitVector in
theorem rangeLoop_spec (lower : Term) (upper : Option Term) (inc : Bool) : ∀ (ts : List (Term × List Nat)), ts.Pairwise (fun a b => a.1 < b.1) →
    ∀ (cl : Bool) (bv : BV), WF bv → ∃ bv', rangeLoop lower upper inc cl bv ts = .ok bv' ∧ WF bv' ∧
      ∀ d, bitAt bv'.bits bv'.ext d = true ↔ bitAt bv.bits bv.ext d = true ∨
        Selected ts (fun t => (cl = false ∨ lower < t) ∧ ∀ u, upper = some u → t < u ∨ (inc = true ∧ t = u)) d := by
  intro ts
  induction ts with
  | nil => intro _ cl bv h; exact ⟨bv, rfl, h, fun d => by simp [Selected]⟩
  | cons x ts ih =>
    obtain ⟨t, docs⟩ := x
    intro hs cl bv h
    obtain ⟨hx, hs'⟩ := List.pairwise_cons.1 hs
    unfold rangeLoop
    by_cases hcl : cl = false ∨ strcmp t lower > 0
    · rw [if_pos hcl]
      have hlow : cl = false ∨ lower < t := hcl.imp id strcmp_pos.1
      -- taking the term
      have take : (∀ u, upper = some u → t < u ∨ (inc = true ∧ t = u)) → ∃ bv', (setDocs bv docs >>= fun bv => rangeLoop lower upper inc false bv ts) = .ok bv' ∧ WF bv' ∧
          ∀ d, bitAt bv'.bits bv'.ext d = true ↔ bitAt bv.bits bv.ext d = true ∨
            Selected ((t, docs) :: ts) (fun t => (cl = false ∨ lower < t) ∧ ∀ u, upper = some u → t < u ∨ (inc = true ∧ t = u)) d := by
        intro hup
        obtain ⟨b1, e1, w1, g1⟩ := setDocs_spec docs bv h
        obtain ⟨b2, e2, w2, g2⟩ := ih hs' false b1 w1
        refine ⟨b2, by rw [e1, Res.ok_bind, e2], w2, fun d => ?_⟩
        rw [g2, g1, selected_cons, Bool.or_eq_true, List.contains_iff_mem, or_assoc]
        apply or_congr Iff.rfl
        apply or_congr
        · exact ⟨fun hd => ⟨⟨hlow, hup⟩, hd⟩, fun hd => hd.2⟩
        · apply selected_congr
          intro y hy
          have : cl = false ∨ lower < y.1 := hlow.imp id fun h => List.lt_trans h (hx y hy)
          exact and_congr ⟨fun _ => this, fun _ => Or.inl rfl⟩ Iff.rfl
      cases upper with
      | none => exact take fun u e => nomatch e
      | some u =>
        dsimp only
        by_cases hstop : strcmp u t ≤ 0 ∧ (inc = false ∨ strcmp u t < 0)
        · rw [if_pos hstop]
          refine ⟨bv, rfl, h, fun d => ⟨Or.inl, ?_⟩⟩
          rintro (hd | ⟨y, hy, ⟨-, hyu⟩, -⟩)
          · exact hd
          · exfalso
            have h1 : ¬ t < u := strcmp_le.1 hstop.1
            rcases List.mem_cons.1 hy with rfl | hy
            · rcases hyu u rfl with h2 | ⟨h2, h3⟩
              · exact h1 h2
              · rcases hstop.2 with h4 | h4
                · rw [h2] at h4; cases h4
                · have := strcmp_neg.1 h4
                  simp only at h3
                  rw [h3] at this
                  exact List.lt_irrefl _ this
            · have h5 := hx y hy
              simp only at h5
              rcases hyu u rfl with h2 | ⟨-, h3⟩
              · exact h1 (List.lt_trans h5 h2)
              · rw [h3] at h5; exact h1 h5
        · rw [if_neg hstop]
          apply take
          intro u' e
          cases e
          by_cases h1 : t < u
          · exact Or.inl h1
          · right
            have h2 : ¬ (inc = false ∨ strcmp u t < 0) := fun h => hstop ⟨strcmp_le.2 h1, h⟩
            refine ⟨by cases inc <;> simp_all, eq_of_not_lt h1 fun h3 => h2 (Or.inr (strcmp_neg.2 h3))⟩
    · rw [if_neg hcl]
      obtain ⟨b2, e2, w2, g2⟩ := ih hs' cl bv h
      refine ⟨b2, e2, w2, fun d => ?_⟩
      rw [g2, selected_cons]
      apply or_congr Iff.rfl
      constructor
      · exact Or.inr
      · rintro (⟨⟨hl, -⟩, -⟩ | h')
        · exact absurd (hl.imp id strcmp_pos.2) hcl
        · exact h'

/-- **C42, range filters.** A document is in the filter exactly if some term of the field lying in the
range has it (whatever the size of the bit vector, `maxDoc`). -/
theorem c42_range (r : Range) (maxDoc : Nat) (terms : List (Term × List Nat)) (hs : Sorted (terms.map (·.1))) :
    ∃ bv, rfiltGetBv r maxDoc (some terms) = .ok bv ∧
      ∀ d : Nat, ∃ b, BitVector.get bv d = .ok b ∧ (b = true ↔ Selected terms (InRange r) d) := by
  have hs' : terms.Pairwise fun a b => a.1 < b.1 := by
    unfold Sorted at hs
    rwa [List.pairwise_map] at hs
  obtain ⟨bv, e, w, g⟩ := rangeLoop_spec (r.lower.getD []) r.upper r.includeUpper (terms.dropWhile fun x => strLt x.1 (r.lower.getD []))
    (hs'.sublist (List.dropWhile_sublist _)) (!(r.includeLower || r.lower.isNone)) (BitVector.newCapa maxDoc) (BitVector.wf_newCapa _)
  refine ⟨bv, e, fun d => ⟨_, BitVector.get_ok bv d w, ?_⟩⟩
  rw [g]
  have hz : BitVector.bitAt (BitVector.newCapa maxDoc).bits (BitVector.newCapa maxDoc).ext d = false := BitVector.bitAt_replicate_zero _ _
  rw [hz]
  simp only [Bool.false_eq_true, false_or]
  -- the terms that are skipped are below the range
  have hdrop : ∀ (ts : List (Term × List Nat)), Selected ts (InRange r) d ↔ Selected (ts.dropWhile fun x => strLt x.1 (r.lower.getD [])) (InRange r) d := by
    intro ts
    induction ts with
    | nil => rfl
    | cons x ts ih =>
      rw [List.dropWhile_cons]
      split
      · rename_i hlt
        rw [← ih, selected_cons]
        refine ⟨?_, Or.inr⟩
        rintro (⟨hin, -⟩ | h)
        · exfalso
          have hlt := (strLt_iff _ _).1 hlt
          cases hl : r.lower with
          | none => rw [hl] at hlt; exact absurd hlt (List.not_lt_nil _)
          | some l =>
            rw [hl] at hlt
            rcases hin.1 l hl with h1 | ⟨-, h1⟩
            · exact List.lt_asymm hlt h1
            · rw [h1] at hlt; exact List.lt_irrefl _ hlt
        · exact h
      · rfl
  rw [hdrop]
  apply selected_congr
  intro x hx
  -- the first term left is not below the lower bound, nor is any later one
  have hge : ¬ x.1 < r.lower.getD [] := by
    have hs2 : (terms.dropWhile fun x => strLt x.1 (r.lower.getD [])).Pairwise (fun a b => a.1 < b.1) := hs'.sublist (List.dropWhile_sublist _)
    have hhead : ∀ (y : Term × List Nat) ys, terms.dropWhile (fun x => strLt x.1 (r.lower.getD [])) = y :: ys → strLt y.1 (r.lower.getD []) = false := by
      intro y ys hy
      have := List.head?_dropWhile_not (fun x : Term × List Nat => strLt x.1 (r.lower.getD [])) terms
      rw [hy] at this
      simpa using this
    cases hd : terms.dropWhile (fun x => strLt x.1 (r.lower.getD [])) with
    | nil => rw [hd] at hx; cases hx
    | cons y ys =>
      rw [hd] at hx hs2
      have hy : ¬ y.1 < r.lower.getD [] := fun hlt => by
        have := hhead y ys hd
        rw [(strLt_iff _ _).2 hlt] at this
        cases this
      rcases List.mem_cons.1 hx with rfl | hx
      · exact hy
      · exact fun hlt => hy (List.lt_trans ((List.pairwise_cons.1 hs2).1 x hx) hlt)
  unfold InRange
  apply and_congr _ Iff.rfl
  cases hl : r.lower with
  | none => simp
  | some l =>
    rw [hl] at hge
    simp only [Option.getD_some] at hge ⊢
    simp only [Option.isNone_some, Bool.or_false, Bool.not_eq_false', Option.some.injEq, forall_eq']
    constructor
    · rintro (h | h)
      · by_cases hlt : l < x.1
        · exact Or.inl hlt
        · exact Or.inr ⟨h, eq_of_not_lt hge hlt⟩
      · exact Or.inl h
    · rintro (h | ⟨h, -⟩)
      · exact Or.inr h
      · exact Or.inl h

/-- Three terms, limit two: `ba`, `bb`, `c` for the prefix `b`. -/
example : Sorted [[97], [98, 97], [98, 98], [99]] ∧ (∃ q, prqRewrite (some [[97], [98, 97], [98, 98], [99]]) [98] 2 one = .ok q ∧ q.terms.heap.map (·.1) = [[98, 97], [98, 98]]) := by
  refine ⟨by unfold Sorted; decide, _, rfl, by decide +kernel⟩

/-- The range [ba, c) has the documents of `ba` and `bb`. -/
example : ∃ bv, rfiltGetBv ⟨some [98, 97], some [99], true, false⟩ 10 (some [([97], [0]), ([98, 97], [1, 4]), ([98, 98], [2]), ([99], [3])]) = .ok bv ∧
    (BitVector.get bv 0, BitVector.get bv 1, BitVector.get bv 2, BitVector.get bv 3, BitVector.get bv 4) = (.ok false, .ok true, .ok true, .ok false, .ok true) := by
  refine ⟨_, rfl, by decide +kernel⟩

#print axioms c42_prefix
#print axioms c42_prefix_no_field
#print axioms c42_wildcard_partial
#print axioms c42_long_prefix
#print axioms c42_fuzzy
#print axioms c42_range
end Ferret.Props
