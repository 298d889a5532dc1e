import Verif.Spec.Combine

/-!
What queries put together find (C91).
-/

namespace Ferret.Comb
open Ferret.Spec

variable {L K : Type}

theorem plainL_eq (cs : List (Occur × CQ L K)) : plainL cs = cs.map fun c => (c.1, plainQ c.2) := by
  induction cs with
  | nil => rfl
  | cons c cs ih => obtain ⟨o, q⟩ := c; rw [plainL, ih]; rfl

theorem rewriteL_eq (e : K → List L) (cs : List (Occur × CQ L K)) : rewriteL e cs = cs.map fun c => (c.1, rewrite e c.2) := by
  induction cs with
  | nil => simp [rewriteL]
  | cons c cs ih => obtain ⟨o, q⟩ := c; rw [rewriteL, ih]; rfl

theorem mem_plainL {cs : List (Occur × CQ L K)} {o : Occur} {b : BQuery (CLeaf L K)} : (o, b) ∈ plainL cs ↔ ∃ q, (o, q) ∈ cs ∧ plainQ q = b := by
  rw [plainL_eq, List.mem_map]
  constructor
  · rintro ⟨c, hc, h⟩; cases h; exact ⟨c.2, hc, rfl⟩
  · rintro ⟨q, hq, rfl⟩; exact ⟨_, hq, rfl⟩

/-- Matching with any meaning of leaves. -/
abbrev sat (D : CLeaf L K → Int → Bool) (live : Int → Bool) (d : Int) (q : CQ L K) : Bool := (plainQ q).matches' D live d

theorem sat_bool (D : CLeaf L K → Int → Bool) (live : Int → Bool) (d : Int) (c : Bool) (cs : List (Occur × CQ L K)) :
    sat D live d (.bool c cs) = true ↔
      (∀ q, (Occur.must, q) ∈ cs → sat D live d q = true) ∧
      (∀ q, (Occur.mustNot, q) ∈ cs → sat D live d q = false) ∧
      ((∃ q, (Occur.must, q) ∈ cs) ∨ (∃ q, (Occur.should, q) ∈ cs ∧ sat D live d q = true) ∨
        (cs ≠ [] ∧ (∀ x ∈ cs, x.1 = Occur.mustNot) ∧ live d = true)) := by
  unfold sat
  rw [plainQ, BQuery.matches_bool]
  constructor
  · rintro ⟨h1, h2, h3⟩
    refine ⟨fun q hq => h1 _ (mem_plainL.2 ⟨q, hq, rfl⟩), fun q hq => h2 _ (mem_plainL.2 ⟨q, hq, rfl⟩), ?_⟩
    rcases h3 with ⟨b, hb⟩ | ⟨b, hb, hm⟩ | ⟨ha, hb, hl⟩
    · obtain ⟨q, hq, _⟩ := mem_plainL.1 hb
      exact .inl ⟨q, hq⟩
    · obtain ⟨q, hq, rfl⟩ := mem_plainL.1 hb
      exact .inr (.inl ⟨q, hq, hm⟩)
    · refine .inr (.inr ⟨?_, ?_, hl⟩)
      · intro e; rw [e] at ha; exact ha rfl
      · intro x hx
        exact hb (x.1, plainQ x.2) (by rw [plainL_eq]; exact List.mem_map.2 ⟨x, hx, rfl⟩)
  · rintro ⟨h1, h2, h3⟩
    refine ⟨?_, ?_, ?_⟩
    · intro b hb; obtain ⟨q, hq, rfl⟩ := mem_plainL.1 hb; exact h1 q hq
    · intro b hb; obtain ⟨q, hq, rfl⟩ := mem_plainL.1 hb; exact h2 q hq
    · rcases h3 with ⟨q, hq⟩ | ⟨q, hq, hm⟩ | ⟨ha, hb, hl⟩
      · exact .inl ⟨_, mem_plainL.2 ⟨q, hq, rfl⟩⟩
      · exact .inr (.inl ⟨_, mem_plainL.2 ⟨q, hq, rfl⟩, hm⟩)
      · refine .inr (.inr ⟨?_, ?_, hl⟩)
        · intro e; rw [plainL_eq, List.map_eq_nil_iff] at e; exact ha e
        · intro x hx
          rw [plainL_eq, List.mem_map] at hx
          obtain ⟨y, hy, rfl⟩ := hx
          exact hb y hy

/-- Two lists of clauses that match alike. -/
theorem sat_congr {D D' : CLeaf L K → Int → Bool} {live : Int → Bool} {d : Int} {c c' : Bool} {cs : List (Occur × CQ L K)} {f : CQ L K → CQ L K}
    (h : ∀ x ∈ cs, sat D live d (f x.2) = sat D' live d x.2) : sat D live d (.bool c (cs.map fun x => (x.1, f x.2))) = sat D' live d (.bool c' cs) := by
  rw [Bool.eq_iff_iff, sat_bool, sat_bool]
  have hm : ∀ (o : Occur) (b : CQ L K), (o, b) ∈ (cs.map fun x => (x.1, f x.2)) ↔ ∃ q, (o, q) ∈ cs ∧ f q = b := by
    intro o b
    rw [List.mem_map]
    constructor
    · rintro ⟨x, hx, e⟩; cases e; exact ⟨x.2, hx, rfl⟩
    · rintro ⟨q, hq, rfl⟩; exact ⟨_, hq, rfl⟩
  constructor
  · rintro ⟨h1, h2, h3⟩
    refine ⟨fun q hq => by rw [← h _ hq]; exact h1 _ ((hm _ _).2 ⟨q, hq, rfl⟩), fun q hq => by rw [← h _ hq]; exact h2 _ ((hm _ _).2 ⟨q, hq, rfl⟩), ?_⟩
    rcases h3 with ⟨b, hb⟩ | ⟨b, hb, hs⟩ | ⟨ha, hb, hl⟩
    · obtain ⟨q, hq, _⟩ := (hm _ _).1 hb; exact .inl ⟨q, hq⟩
    · obtain ⟨q, hq, rfl⟩ := (hm _ _).1 hb; exact .inr (.inl ⟨q, hq, by rw [← h _ hq]; exact hs⟩)
    · exact .inr (.inr ⟨fun e => ha (by rw [e]; rfl), fun x hx => hb (x.1, f x.2) (List.mem_map.2 ⟨x, hx, rfl⟩), hl⟩)
  · rintro ⟨h1, h2, h3⟩
    refine ⟨?_, ?_, ?_⟩
    · intro b hb; obtain ⟨q, hq, rfl⟩ := (hm _ _).1 hb; rw [h _ hq]; exact h1 q hq
    · intro b hb; obtain ⟨q, hq, rfl⟩ := (hm _ _).1 hb; rw [h _ hq]; exact h2 q hq
    · rcases h3 with ⟨q, hq⟩ | ⟨q, hq, hs⟩ | ⟨ha, hb, hl⟩
      · exact .inl ⟨_, (hm _ _).2 ⟨q, hq, rfl⟩⟩
      · exact .inr (.inl ⟨_, (hm _ _).2 ⟨q, hq, rfl⟩, by rw [h _ hq]; exact hs⟩)
      · refine .inr (.inr ⟨fun e => ha (List.map_eq_nil_iff.1 e), ?_, hl⟩)
        intro x hx
        obtain ⟨y, hy, rfl⟩ := List.mem_map.1 hx
        exact hb y hy

/-! ### Rewriting -/

/-- The cases of `rewrite`. -/
theorem rewrite_bool (e : K → List L) (c : Bool) (cs : List (Occur × CQ L K)) :
    (∃ o q, cs = [(o, q)] ∧ o ≠ .mustNot ∧ rewrite e (.bool c cs) = rewrite e q) ∨
    (cs ≠ [] ∧ (∀ x ∈ cs, x.1 = .mustNot) ∧ rewrite e (.bool c cs) = .bool c (rewriteL e cs ++ [(.must, .all)])) ∨
    (¬ (cs ≠ [] ∧ ∀ x ∈ cs, x.1 = .mustNot) ∧ rewrite e (.bool c cs) = .bool c (rewriteL e cs)) := by
  by_cases h1 : ∃ o q, cs = [(o, q)] ∧ o ≠ .mustNot
  · obtain ⟨o, q, rfl, ho⟩ := h1
    left
    refine ⟨o, q, rfl, ho, ?_⟩
    cases o with
    | must => rw [rewrite]
    | should => rw [rewrite]
    | mustNot => exact absurd rfl ho
  · right
    have hr : rewrite e (.bool c cs) = if !cs.isEmpty && cs.all (·.1 = .mustNot) then .bool c (rewriteL e cs ++ [(.must, .all)]) else .bool c (rewriteL e cs) := by
      rw [rewrite]
      · intro q hq; exact h1 ⟨_, q, hq, by simp⟩
      · intro q hq; exact h1 ⟨_, q, hq, by simp⟩
    by_cases h2 : cs ≠ [] ∧ ∀ x ∈ cs, x.1 = .mustNot
    · left
      refine ⟨h2.1, h2.2, ?_⟩
      rw [hr, if_pos]
      simp only [Bool.and_eq_true, Bool.not_eq_true', List.isEmpty_eq_false_iff, List.all_eq_true, decide_eq_true_eq]
      exact h2
    · right
      refine ⟨h2, ?_⟩
      rw [hr, if_neg]
      simp only [Bool.and_eq_true, Bool.not_eq_true', List.isEmpty_eq_false_iff, List.all_eq_true, decide_eq_true_eq]
      exact h2

/-- Induction on queries. -/
theorem CQ.ind {P : CQ L K → Prop} (hl : ∀ l, P (.leaf l)) (ha : P .all) (hb : ∀ c cs, (∀ x ∈ cs, P x.2) → P (.bool c cs)) : ∀ q, P q := by
  intro q
  exact CQ.rec (motive_1 := P) (motive_2 := fun cs => ∀ x ∈ cs, P x.2) (motive_3 := fun x => P x.2) hl ha hb
    (by intro x hx; cases hx)
    (by
      intro x cs h1 h2 y hy
      rcases List.mem_cons.1 hy with rfl | hy
      · exact h1
      · exact h2 y hy)
    (by intro _ q h; exact h) q

/-- **Rewriting gives patterns the meaning of their terms.** -/
theorem sat_rewrite (has : L → Int → Bool) (e e' : K → List L) (live : Int → Bool) (d : Int) : ∀ q : CQ L K,
    sat (leafFinds has e) live d (rewrite e' q) = sat (leafFinds has e') live d q := by
  apply CQ.ind
  · intro l
    cases l with
    | pattern k => simp only [rewrite, sat, plainQ, BQuery.matches', leafFinds]
    | own l => simp only [rewrite, sat, plainQ, BQuery.matches', leafFinds]
    | many ls => simp only [rewrite, sat, plainQ, BQuery.matches', leafFinds]
  · simp only [rewrite, sat, plainQ, BQuery.matches']
  · intro c cs ih
    rcases rewrite_bool e' c cs with ⟨o, q, rfl, ho, hr⟩ | ⟨hne, hall, hr⟩ | ⟨_, hr⟩
    · rw [hr, ih (o, q) (by simp)]
      rw [Bool.eq_iff_iff, sat_bool]
      cases o with
      | mustNot => exact absurd rfl ho
      | must => simp
      | should => simp
    · rw [hr, rewriteL_eq]
      rw [Bool.eq_iff_iff, sat_bool, sat_bool]
      constructor
      · rintro ⟨h1, h2, _⟩
        refine ⟨?_, ?_, .inr (.inr ⟨hne, hall, ?_⟩)⟩
        · intro q hq; exact absurd (hall _ hq) (by simp)
        · intro q hq
          rw [← ih _ hq]
          exact h2 _ (List.mem_append_left _ (List.mem_map.2 ⟨_, hq, rfl⟩))
        · have := h1 .all (by simp)
          simpa [sat, plainQ, BQuery.matches'] using this
      · rintro ⟨_, h2, h3⟩
        refine ⟨?_, ?_, .inl ⟨.all, by simp⟩⟩
        · intro q hq
          rcases List.mem_append.1 hq with hq | hq
          · obtain ⟨x, hx, e⟩ := List.mem_map.1 hq
            simp only [Prod.mk.injEq] at e
            exact absurd (hall x hx) (by rw [e.1]; simp)
          · simp only [List.mem_singleton, Prod.mk.injEq, true_and] at hq
            subst hq
            rcases h3 with ⟨q, hq⟩ | ⟨q, hq, _⟩ | ⟨_, _, hl⟩
            · exact absurd (hall _ hq) (by simp)
            · exact absurd (hall _ hq) (by simp)
            · simpa [sat, plainQ, BQuery.matches'] using hl
        · intro q hq
          rcases List.mem_append.1 hq with hq | hq
          · obtain ⟨x, hx, e⟩ := List.mem_map.1 hq
            have : x.1 = .mustNot := hall x hx
            simp only [Prod.mk.injEq] at e
            rw [← e.2, ih x hx]
            exact h2 x.2 (by rw [← this]; exact hx)
          · simp at hq
    · rw [hr, rewriteL_eq]
      exact sat_congr ih

/-- More terms find more, or fewer. -/
theorem sat_mono (has : L → Int → Bool) (e e' : K → List L) (live : Int → Bool) (d : Int)
    (h : ∀ k, (e' k).any (fun l => has l d) = true → (e k).any (fun l => has l d) = true) : ∀ (q : CQ L K),
    (onlyWidens true q = true → sat (leafFinds has e') live d q = true → sat (leafFinds has e) live d q = true) ∧
    (onlyWidens false q = true → sat (leafFinds has e) live d q = true → sat (leafFinds has e') live d q = true) := by
  have hmem : ∀ (p : Bool) (cs : List (Occur × CQ L K)), onlyWidensL p cs = true → ∀ x ∈ cs, onlyWidens (if x.1 = .mustNot then !p else p) x.2 = true := by
    intro p cs
    induction cs with
    | nil => intro _ x hx; cases hx
    | cons c cs ih =>
      obtain ⟨o, q⟩ := c
      intro hw x hx
      simp only [onlyWidensL, Bool.and_eq_true] at hw
      rcases List.mem_cons.1 hx with rfl | hx
      · exact hw.1
      · exact ih hw.2 x hx
  apply CQ.ind
  · intro l
    cases l with
    | pattern k =>
      constructor
      · intro _; simpa only [sat, plainQ, BQuery.matches', leafFinds] using h k
      · intro hw; simp [onlyWidens] at hw
    | own l => constructor <;> (intro _; simp only [sat, plainQ, BQuery.matches', leafFinds]; exact id)
    | many l => constructor <;> (intro _; simp only [sat, plainQ, BQuery.matches', leafFinds]; exact id)
  · constructor <;> (intro _; simp only [sat, plainQ, BQuery.matches']; exact id)
  · intro c cs ih
    have key : ∀ (p : Bool) (D D' : CLeaf L K → Int → Bool), (∀ x ∈ cs, x.1 ≠ .mustNot → sat D' live d x.2 = true → sat D live d x.2 = true) →
        (∀ x ∈ cs, x.1 = .mustNot → sat D live d x.2 = true → sat D' live d x.2 = true) →
        sat D' live d (.bool c cs) = true → sat D live d (.bool c cs) = true := by
      intro _ D D' g1 g2
      rw [sat_bool, sat_bool]
      rintro ⟨h1, h2, h3⟩
      refine ⟨fun q hq => g1 _ hq (by simp) (h1 q hq), ?_, ?_⟩
      · intro q hq
        cases hs : sat D live d q with
        | false => rfl
        | true =>
          have := g2 _ hq rfl hs
          rw [h2 q hq] at this
          cases this
      · rcases h3 with h3 | ⟨q, hq, hs⟩ | h3
        · exact .inl h3
        · exact .inr (.inl ⟨q, hq, g1 _ hq (by simp) hs⟩)
        · exact .inr (.inr h3)
    constructor
    · intro hw
      rw [onlyWidens] at hw
      refine key true _ _ ?_ ?_
      · intro x hx ho
        have := hmem true cs hw x hx
        rw [if_neg ho] at this
        exact (ih x hx).1 this
      · intro x hx ho
        have := hmem true cs hw x hx
        rw [if_pos ho] at this
        exact (ih x hx).2 this
    · intro hw
      rw [onlyWidens] at hw
      refine key false _ _ ?_ ?_
      · intro x hx ho
        have := hmem false cs hw x hx
        rw [if_neg ho] at this
        exact (ih x hx).2 this
      · intro x hx ho
        have := hmem false cs hw x hx
        rw [if_pos ho] at this
        exact (ih x hx).1 this

/-! ### Putting together -/

theorem sat_shoulds (D : CLeaf L K → Int → Bool) (live : Int → Bool) (d : Int) (c : Bool) (cs : List (Occur × CQ L K)) (h : ∀ x ∈ cs, x.1 = .should) :
    sat D live d (.bool c cs) = (cs.map (·.2)).any (sat D live d) := by
  rw [Bool.eq_iff_iff, sat_bool, List.any_eq_true]
  constructor
  · rintro ⟨_, _, ⟨q, hq⟩ | ⟨q, hq, hs⟩ | ⟨hne, ha, _⟩⟩
    · exact absurd (h _ hq) (by simp)
    · exact ⟨q, List.mem_map.2 ⟨_, hq, rfl⟩, hs⟩
    · cases cs with
      | nil => exact absurd rfl hne
      | cons x cs =>
        have h1 := h x (by simp)
        rw [ha x (by simp)] at h1
        cases h1
  · rintro ⟨q, hq, hs⟩
    obtain ⟨x, hx, rfl⟩ := List.mem_map.1 hq
    refine ⟨fun q hq => absurd (h _ hq) (by simp), fun q hq => absurd (h _ hq) (by simp), .inr (.inl ⟨x.2, ?_, hs⟩)⟩
    rw [← h x hx]
    exact hx

theorem sat_parts (D : CLeaf L K → Int → Bool) (live : Int → Bool) (d : Int) (q : CQ L K) : (parts q).any (sat D live d) = sat D live d q := by
  unfold parts
  split
  · rename_i cs
    split
    · rename_i h
      rw [sat_shoulds]
      intro x hx
      simpa using List.all_eq_true.1 h x hx
    · simp
  · simp

theorem sat_uniques (D : CLeaf L K → Int → Bool) (live : Int → Bool) (d : Int) (same : CQ L K → CQ L K → Bool)
    (hs : ∀ a b, same a b = true → sat D live d a = sat D live d b) : ∀ (l u : List (CQ L K)),
    (l.foldl (hsAdd same) u).any (sat D live d) = (u.any (sat D live d) || l.any (sat D live d)) := by
  intro l
  induction l with
  | nil => intro u; simp
  | cons q l ih =>
    intro u
    rw [List.foldl_cons, ih, List.any_cons, ← Bool.or_assoc]
    congr 1
    unfold hsAdd
    split
    · rename_i h
      obtain ⟨x, hx, hq⟩ := List.any_eq_true.1 h
      cases hsat : sat D live d q with
      | false => simp
      | true =>
        rw [Bool.or_true, List.any_eq_true]
        exact ⟨x, hx, by rw [hs x q hq]; exact hsat⟩
    · simp

theorem sat_combine (D : CLeaf L K → Int → Bool) (live : Int → Bool) (d : Int) (same : CQ L K → CQ L K → Bool)
    (hs : ∀ a b, same a b = true → sat D live d a = sat D live d b) {qs : List (CQ L K)} {r : CQ L K} (h : combine same qs = .ok r) :
    sat D live d r = qs.any (sat D live d) := by
  have hu : (uniques same qs).any (sat D live d) = qs.any (sat D live d) := by
    unfold uniques
    rw [sat_uniques D live d same hs, List.any_nil, Bool.false_or, List.any_flatMap]
    congr 1
    funext q
    exact sat_parts D live d q
  rw [← hu]
  unfold combine wrap at h
  split at h
  · rename_i q hq
    cases h
    rw [hq]
    simp
  · split at h
    · cases h
    · cases h
      rw [sat_shoulds]
      · simp [List.map_map, Function.comp_def]
      · intro x hx
        obtain ⟨y, _, rfl⟩ := List.mem_map.1 hx
        rfl

/-! ### No patterns any more -/

mutual
def patternFree : CQ L K → Bool
  | .leaf (.pattern _) => false
  | .leaf _ => true
  | .all => true
  | .bool _ cs => patternFreeL cs
def patternFreeL : List (Occur × CQ L K) → Bool
  | [] => true
  | (_, q) :: cs => patternFree q && patternFreeL cs
end

theorem patternFreeL_iff (cs : List (Occur × CQ L K)) : patternFreeL cs = true ↔ ∀ x ∈ cs, patternFree x.2 = true := by
  induction cs with
  | nil => simp [patternFreeL]
  | cons c cs ih => obtain ⟨o, q⟩ := c; simp [patternFreeL, ih]

theorem patternFree_rewrite (e : K → List L) : ∀ q : CQ L K, patternFree (rewrite e q) = true := by
  apply CQ.ind
  · intro l; cases l <;> simp [rewrite, patternFree]
  · simp [rewrite, patternFree]
  · intro c cs ih
    rcases rewrite_bool e c cs with ⟨o, q, rfl, _, hr⟩ | ⟨_, _, hr⟩ | ⟨_, hr⟩
    · rw [hr]; exact ih (o, q) (by simp)
    · rw [hr, patternFree, patternFreeL_iff, rewriteL_eq]
      intro x hx
      rcases List.mem_append.1 hx with hx | hx
      · obtain ⟨y, hy, rfl⟩ := List.mem_map.1 hx; exact ih y hy
      · simp only [List.mem_singleton] at hx; subst hx; simp [patternFree]
    · rw [hr, patternFree, patternFreeL_iff, rewriteL_eq]
      intro x hx
      obtain ⟨y, hy, rfl⟩ := List.mem_map.1 hx; exact ih y hy

/-- Without patterns their terms do not matter. -/
theorem sat_free (has : L → Int → Bool) (e e' : K → List L) (live : Int → Bool) (d : Int) : ∀ q : CQ L K, patternFree q = true →
    sat (leafFinds has e') live d q = sat (leafFinds has e) live d q := by
  apply CQ.ind (P := fun q => patternFree q = true → sat (leafFinds has e') live d q = sat (leafFinds has e) live d q)
  · intro l
    cases l with
    | pattern k => intro h; simp [patternFree] at h
    | own l => intro _; simp only [sat, plainQ, BQuery.matches', leafFinds]
    | many l => intro _; simp only [sat, plainQ, BQuery.matches', leafFinds]
  · intro _; simp only [sat, plainQ, BQuery.matches']
  · intro c cs ih h
    rw [patternFree, patternFreeL_iff] at h
    have := sat_congr (D := leafFinds has e') (D' := leafFinds has e) (live := live) (d := d) (c := c) (c' := c) (cs := cs) (f := id) (fun x hx => ih x hx (h x hx))
    simpa using this

theorem foldl_mem (same : CQ L K → CQ L K → Bool) : ∀ (l u : List (CQ L K)), ∀ q ∈ l.foldl (hsAdd same) u, q ∈ u ∨ q ∈ l := by
  intro l
  induction l with
  | nil => intro u q hq; exact .inl hq
  | cons a l ih =>
    intro u q hq
    rcases ih _ q hq with h | h
    · unfold hsAdd at h
      split at h
      · exact .inl h
      · rcases List.mem_append.1 h with h | h
        · exact .inl h
        · exact .inr (by simp_all)
    · exact .inr (List.mem_cons_of_mem _ h)

theorem uniques_mem {same : CQ L K → CQ L K → Bool} {qs : List (CQ L K)} {q : CQ L K} (h : q ∈ uniques same qs) : ∃ p ∈ qs, q ∈ parts p := by
  rcases foldl_mem same _ _ q h with h | h
  · cases h
  · exact List.mem_flatMap.1 h

theorem patternFree_parts {p q : CQ L K} (hp : patternFree p = true) (h : q ∈ parts p) : patternFree q = true := by
  unfold parts at h
  split at h
  · split at h
    · rw [patternFree, patternFreeL_iff] at hp
      obtain ⟨x, hx, rfl⟩ := List.mem_map.1 h
      exact hp x hx
    · rw [List.mem_singleton.1 h]; exact hp
  · rw [List.mem_singleton.1 h]; exact hp

theorem patternFree_msea {same : CQ L K → CQ L K → Bool} {subs : List (K → List L)} {q r : CQ L K} (h : mseaRewrite same subs q = .ok r) : patternFree r = true := by
  have hm : ∀ x ∈ uniques same (subs.map fun e => rewrite e q), patternFree x = true := by
    intro x hx
    obtain ⟨p, hp, hpx⟩ := uniques_mem hx
    obtain ⟨e, _, rfl⟩ := List.mem_map.1 hp
    exact patternFree_parts (patternFree_rewrite e q) hpx
  unfold mseaRewrite combine wrap at h
  split at h
  · rename_i y hy
    cases h
    exact hm _ (by rw [hy]; simp)
  · split at h
    · cases h
    · cases h
      rw [patternFree, patternFreeL_iff]
      intro x hx
      obtain ⟨y, hy, rfl⟩ := List.mem_map.1 hx
      exact hm y hy

theorem weighL_spec {f : CQ L K → Res (CQ L K)} : ∀ {cs ws : List (Occur × CQ L K)}, weighL f cs = .ok ws →
    ∀ {D : CLeaf L K → Int → Bool} {live : Int → Bool} {d : Int} {c : Bool}, (∀ x ∈ cs, ∀ w, f x.2 = .ok w → sat D live d w = sat D live d x.2) →
    (∀ o, (∀ w, (o, w) ∈ ws → ∃ q, (o, q) ∈ cs ∧ sat D live d w = sat D live d q) ∧ (∀ q, (o, q) ∈ cs → ∃ w, (o, w) ∈ ws ∧ sat D live d w = sat D live d q)) := by
  intro cs
  induction cs with
  | nil => intro ws h D live d c _ o; cases h; exact ⟨by simp, by simp⟩
  | cons x cs ih =>
    obtain ⟨o, q⟩ := x
    intro ws h D live d c hf o'
    simp only [weighL, Res.bind_eq_ok] at h
    obtain ⟨w, h1, ws', h2, h3⟩ := h
    cases h3
    obtain ⟨i1, i2⟩ := ih h2 (c := c) (fun x hx => hf x (List.mem_cons_of_mem _ hx)) o'
    constructor
    · intro w' hw
      rcases List.mem_cons.1 hw with e | hw
      · cases e; exact ⟨q, by simp, hf (o, q) (by simp) w h1⟩
      · obtain ⟨q', hq, hs⟩ := i1 w' hw; exact ⟨q', List.mem_cons_of_mem _ hq, hs⟩
    · intro q' hq
      rcases List.mem_cons.1 hq with e | hq
      · cases e; exact ⟨w, by simp, hf (o, q) (by simp) w h1⟩
      · obtain ⟨w', hw, hs⟩ := i2 q' hq; exact ⟨w', List.mem_cons_of_mem _ hw, hs⟩

theorem weighL_sat {f : CQ L K → Res (CQ L K)} {cs ws : List (Occur × CQ L K)} (h : weighL f cs = .ok ws) {D : CLeaf L K → Int → Bool} {live : Int → Bool} {d : Int} {c : Bool}
    (hf : ∀ x ∈ cs, ∀ w, f x.2 = .ok w → sat D live d w = sat D live d x.2) : sat D live d (.bool c ws) = sat D live d (.bool c cs) := by
  have g := fun o => weighL_spec h (c := c) hf o
  have ho : (∀ x ∈ ws, x.1 = Occur.mustNot) ↔ (∀ x ∈ cs, x.1 = Occur.mustNot) := by
    constructor
    · intro hh x hx; obtain ⟨w, hw, _⟩ := (g x.1).2 x.2 hx; exact hh (x.1, w) hw
    · intro hh x hx; obtain ⟨q, hq, _⟩ := (g x.1).1 x.2 hx; exact hh (x.1, q) hq
  have hn : ws ≠ [] ↔ cs ≠ [] := by
    constructor
    · intro hh
      cases ws with
      | nil => exact absurd rfl hh
      | cons x ws => obtain ⟨q, hq, _⟩ := (g x.1).1 x.2 (by simp); exact List.ne_nil_of_mem hq
    · intro hh
      cases cs with
      | nil => exact absurd rfl hh
      | cons x cs => obtain ⟨q, hq, _⟩ := (g x.1).2 x.2 (by simp); exact List.ne_nil_of_mem hq
  rw [Bool.eq_iff_iff, sat_bool, sat_bool, ho, hn]
  constructor
  · rintro ⟨h1, h2, h3⟩
    refine ⟨?_, ?_, ?_⟩
    · intro q hq; obtain ⟨w, hw, e⟩ := (g _).2 q hq; rw [← e]; exact h1 w hw
    · intro q hq; obtain ⟨w, hw, e⟩ := (g _).2 q hq; rw [← e]; exact h2 w hw
    · rcases h3 with ⟨w, hw⟩ | ⟨w, hw, hs⟩ | h3
      · obtain ⟨q, hq, _⟩ := (g _).1 w hw; exact .inl ⟨q, hq⟩
      · obtain ⟨q, hq, e⟩ := (g _).1 w hw; exact .inr (.inl ⟨q, hq, by rw [← e]; exact hs⟩)
      · exact .inr (.inr h3)
  · rintro ⟨h1, h2, h3⟩
    refine ⟨?_, ?_, ?_⟩
    · intro w hw; obtain ⟨q, hq, e⟩ := (g _).1 w hw; rw [e]; exact h1 q hq
    · intro w hw; obtain ⟨q, hq, e⟩ := (g _).1 w hw; rw [e]; exact h2 q hq
    · rcases h3 with ⟨q, hq⟩ | ⟨q, hq, hs⟩ | h3
      · obtain ⟨w, hw, _⟩ := (g _).2 q hq; exact .inl ⟨w, hw⟩
      · obtain ⟨w, hw, e⟩ := (g _).2 q hq; exact .inr (.inl ⟨w, hw, by rw [e]; exact hs⟩)
      · exact .inr (.inr h3)

section
variable (same : CQ L K → CQ L K → Bool) (subs : List (K → List L)) (has : L → Int → Bool) (e : K → List L) (live : Int → Bool) (d : Int)
  (hs : ∀ a b, same a b = true → sat (leafFinds has e) live d a = sat (leafFinds has e) live d b)
include hs

/-- What the rewritten query finds in a searcher: what it finds with the terms of any of them. -/
theorem sat_msea {q r : CQ L K} (h : mseaRewrite same subs q = .ok r) : sat (leafFinds has e) live d r = subs.any fun e' => sat (leafFinds has e') live d q := by
  unfold mseaRewrite at h
  rw [sat_combine _ _ _ _ hs h, List.any_map]
  congr 1
  funext e'
  exact sat_rewrite has e e' live d q

theorem weigh_free (hne : subs ≠ []) : ∀ (n : Nat) {q w : CQ L K}, patternFree q = true → weigh same subs n q = .ok w →
    sat (leafFinds has e) live d w = sat (leafFinds has e) live d q := by
  intro n
  induction n with
  | zero => intro q w _ h; cases h
  | succ n ih =>
    intro q w hq h
    simp only [weigh, Res.bind_eq_ok] at h
    obtain ⟨r, h1, h2⟩ := h
    have hr : sat (leafFinds has e) live d r = sat (leafFinds has e) live d q := by
      rw [sat_msea same subs has e live d hs h1]
      have : (fun e' => sat (leafFinds has e') live d q) = fun _ => sat (leafFinds has e) live d q := by
        funext e'; exact sat_free has e e' live d q hq
      rw [this]
      cases subs with
      | nil => exact absurd rfl hne
      | cons a l => cases hh : sat (leafFinds has e) live d q <;> simp
    have hfree := patternFree_msea h1
    cases r with
    | leaf l => cases h2; exact hr
    | all => cases h2; exact hr
    | bool c cs =>
      simp only [Res.bind_eq_ok] at h2
      obtain ⟨ws, h3, h4⟩ := h2
      cases h4
      rw [patternFree, patternFreeL_iff] at hfree
      rw [weighL_sat h3 (fun x hx w hw => ih (hfree x hx) hw)]
      exact hr

/-- **What is found in a searcher.** -/
theorem weigh_sat (he : e ∈ subs) (hmore : ∀ e' ∈ subs, ∀ k, (e' k).any (fun l => has l d) = true → (e k).any (fun l => has l d) = true)
    {n : Nat} {q w : CQ L K} (hq : onlyWidens true q = true) (h : weigh same subs n q = .ok w) :
    sat (leafFinds has e) live d w = sat (leafFinds has e) live d q := by
  cases n with
  | zero => cases h
  | succ n =>
    simp only [weigh, Res.bind_eq_ok] at h
    obtain ⟨r, h1, h2⟩ := h
    have hr : sat (leafFinds has e) live d r = sat (leafFinds has e) live d q := by
      rw [sat_msea same subs has e live d hs h1, Bool.eq_iff_iff, List.any_eq_true]
      constructor
      · rintro ⟨e', he', hm⟩
        exact (sat_mono has e e' live d (hmore e' he') q).1 hq hm
      · intro hm; exact ⟨e, he, hm⟩
    have hfree := patternFree_msea h1
    cases r with
    | leaf l => cases h2; exact hr
    | all => cases h2; exact hr
    | bool c cs =>
      simp only [Res.bind_eq_ok] at h2
      obtain ⟨ws, h3, h4⟩ := h2
      cases h4
      rw [patternFree, patternFreeL_iff] at hfree
      rw [weighL_sat h3 (fun x hx w hw => weigh_free same subs has e live d hs (List.ne_nil_of_mem he) n (hfree x hx) hw)]
      exact hr
end

/-! ### It comes to an end -/

theorem nestingL_le {cs : List (Occur × CQ L K)} {n : Nat} : nestingL cs ≤ n ↔ ∀ x ∈ cs, nesting x.2 ≤ n := by
  induction cs with
  | nil => simp [nestingL]
  | cons c cs ih => obtain ⟨o, q⟩ := c; simp [nestingL, Nat.max_le, ih]

theorem nesting_mem {c : Bool} {cs : List (Occur × CQ L K)} {x : Occur × CQ L K} (h : x ∈ cs) : nesting x.2 < nesting (.bool c cs) := by
  rw [nesting]
  have := nestingL_le.1 (Nat.le_refl (nestingL cs)) x h
  omega

theorem nesting_rewrite (e : K → List L) : ∀ q : CQ L K, nesting (rewrite e q) ≤ nesting q := by
  apply CQ.ind
  · intro l; cases l <;> simp [rewrite, nesting]
  · simp [rewrite, nesting]
  · intro c cs ih
    rcases rewrite_bool e c cs with ⟨o, q, rfl, _, hr⟩ | ⟨_, _, hr⟩ | ⟨_, hr⟩
    · rw [hr]
      have h1 := ih (o, q) (by simp)
      have h2 := nesting_mem (c := c) (cs := [(o, q)]) (x := (o, q)) (by simp)
      dsimp only at h1 h2
      omega
    · rw [hr, nesting, nesting, rewriteL_eq]
      apply Nat.succ_le_succ
      rw [nestingL_le]
      intro x hx
      rcases List.mem_append.1 hx with hx | hx
      · obtain ⟨y, hy, rfl⟩ := List.mem_map.1 hx
        exact Nat.le_trans (ih y hy) (nestingL_le.1 (Nat.le_refl _) y hy)
      · simp only [List.mem_singleton] at hx; subst hx; simp [nesting]
    · rw [hr, nesting, nesting, rewriteL_eq]
      apply Nat.succ_le_succ
      rw [nestingL_le]
      intro x hx
      obtain ⟨y, hy, rfl⟩ := List.mem_map.1 hx
      exact Nat.le_trans (ih y hy) (nestingL_le.1 (Nat.le_refl _) y hy)

/-- Without patterns all searchers rewrite alike. -/
theorem rewrite_free (e e' : K → List L) : ∀ q : CQ L K, patternFree q = true → rewrite e q = rewrite e' q := by
  apply CQ.ind (P := fun q => patternFree q = true → rewrite e q = rewrite e' q)
  · intro l h
    cases l with
    | pattern k => simp [patternFree] at h
    | own l => simp [rewrite]
    | many l => simp [rewrite]
  · intro _; simp [rewrite]
  · intro c cs ih h
    rw [patternFree, patternFreeL_iff] at h
    have hl : rewriteL e cs = rewriteL e' cs := by
      rw [rewriteL_eq, rewriteL_eq]
      apply List.map_congr_left
      intro x hx
      rw [ih x hx (h x hx)]
    rcases rewrite_bool e c cs with ⟨o, q, rfl, ho, hr⟩ | ⟨a1, a2, hr⟩ | ⟨a1, hr⟩
    · rcases rewrite_bool e' c [(o, q)] with ⟨o', q', hq, _, hr'⟩ | ⟨_, a2, _⟩ | ⟨_, hr'⟩
      · cases hq; rw [hr, hr']; exact ih (o, q) (by simp) (h _ (by simp))
      · exact absurd (a2 (o, q) (by simp)) ho
      · have : rewrite e' (.bool c [(o, q)]) = rewrite e' q := by
          cases o with
          | must => rw [rewrite]
          | should => rw [rewrite]
          | mustNot => exact absurd rfl ho
        rw [hr, this]; exact ih (o, q) (by simp) (h _ (by simp))
    · rcases rewrite_bool e' c cs with ⟨o', q', rfl, ho, _⟩ | ⟨_, _, hr'⟩ | ⟨b1, _⟩
      · exact absurd (a2 (o', q') (by simp)) ho
      · rw [hr, hr', hl]
      · exact absurd ⟨a1, a2⟩ b1
    · rcases rewrite_bool e' c cs with ⟨o', q', rfl, ho, hr'⟩ | ⟨b1, b2, _⟩ | ⟨_, hr'⟩
      · have : rewrite e (.bool c [(o', q')]) = rewrite e q' := by
          cases o' with
          | must => rw [rewrite]
          | should => rw [rewrite]
          | mustNot => exact absurd rfl ho
        rw [hr', this]; exact ih (o', q') (by simp) (h _ (by simp))
      · exact absurd ⟨b1, b2⟩ a1
      · rw [hr, hr', hl]

/-- Adding a list again adds nothing. -/
theorem foldl_known {same : CQ L K → CQ L K → Bool} : ∀ (l u : List (CQ L K)), (∀ q ∈ l, u.any (fun x => same x q) = true) → l.foldl (hsAdd same) u = u := by
  intro l
  induction l with
  | nil => intro u _; rfl
  | cons q l ih =>
    intro u h
    rw [List.foldl_cons]
    have : hsAdd same u q = u := by unfold hsAdd; rw [if_pos (h q (by simp))]
    rw [this]
    exact ih u (fun q hq => h q (List.mem_cons_of_mem _ hq))

theorem foldl_keeps {same : CQ L K → CQ L K → Bool} : ∀ (l u : List (CQ L K)) (q : CQ L K), u.any (fun x => same x q) = true → (l.foldl (hsAdd same) u).any (fun x => same x q) = true := by
  intro l
  induction l with
  | nil => intro u q h; exact h
  | cons a l ih =>
    intro u q h
    rw [List.foldl_cons]
    apply ih
    unfold hsAdd
    split
    · exact h
    · rw [List.any_append, h]; rfl

theorem foldl_has {same : CQ L K → CQ L K → Bool} (hrefl : ∀ q, same q q = true) : ∀ (l u : List (CQ L K)), ∀ q ∈ l, (l.foldl (hsAdd same) u).any (fun x => same x q) = true := by
  intro l
  induction l with
  | nil => intro u q hq; cases hq
  | cons a l ih =>
    intro u q hq
    rw [List.foldl_cons]
    rcases List.mem_cons.1 hq with rfl | hq
    · apply foldl_keeps
      unfold hsAdd
      split
      · assumption
      · rw [List.any_append]; simp [hrefl]
    · exact ih _ q hq

theorem uniques_replicate {same : CQ L K → CQ L K → Bool} (hrefl : ∀ q, same q q = true) (p : CQ L K) : ∀ n, uniques same (List.replicate (n + 1) p) = (parts p).foldl (hsAdd same) [] := by
  intro n
  unfold uniques
  rw [List.replicate_succ, List.flatMap_cons, List.foldl_append]
  apply foldl_known
  intro q hq
  obtain ⟨p', hp, hq⟩ := List.mem_flatMap.1 hq
  rw [List.eq_of_mem_replicate hp] at hq
  exact foldl_has hrefl _ _ q hq

/-- The query put together is nested at most once more than the deepest, and no more if all are the same. -/
theorem nesting_wrap {u : List (CQ L K)} {r : CQ L K} {n : Nat} (h : wrap u = .ok r) (hn : ∀ q ∈ u, nesting q ≤ n) : nesting r ≤ n + 1 := by
  unfold wrap at h
  split at h
  · cases h; have := hn r (by simp); omega
  · split at h
    · cases h
    · cases h
      rw [nesting]
      apply Nat.succ_le_succ
      rw [nestingL_le]
      intro x hx
      obtain ⟨y, hy, rfl⟩ := List.mem_map.1 hx
      exact hn y hy

theorem nesting_parts {p q : CQ L K} (h : q ∈ parts p) : nesting q ≤ nesting p := by
  unfold parts at h
  split at h
  · split at h
    · obtain ⟨x, hx, rfl⟩ := List.mem_map.1 h
      exact Nat.le_of_lt (nesting_mem hx)
    · rw [List.mem_singleton.1 h]; exact Nat.le_refl _
  · rw [List.mem_singleton.1 h]; exact Nat.le_refl _

theorem nesting_msea {same : CQ L K → CQ L K → Bool} {subs : List (K → List L)} {q r : CQ L K} (h : mseaRewrite same subs q = .ok r) : nesting r ≤ nesting q + 1 := by
  unfold mseaRewrite combine at h
  refine nesting_wrap h ?_
  intro x hx
  obtain ⟨p, hp, hpx⟩ := uniques_mem hx
  obtain ⟨e, _, rfl⟩ := List.mem_map.1 hp
  exact Nat.le_trans (nesting_parts hpx) (nesting_rewrite e q)

theorem nesting_msea_free {same : CQ L K → CQ L K → Bool} (hrefl : ∀ q, same q q = true) {subs : List (K → List L)} (hne : subs ≠ []) {q r : CQ L K} (hf : patternFree q = true)
    (h : mseaRewrite same subs q = .ok r) : nesting r ≤ nesting q := by
  cases subs with
  | nil => exact absurd rfl hne
  | cons e l =>
    have hmap : ((e :: l).map fun e => rewrite e q) = List.replicate (l.length + 1) (rewrite e q) := by
      rw [List.eq_replicate_iff]
      refine ⟨by simp, ?_⟩
      intro x hx
      obtain ⟨e', _, rfl⟩ := List.mem_map.1 hx
      exact rewrite_free e' e q hf
    unfold mseaRewrite combine at h
    rw [hmap, uniques_replicate hrefl] at h
    have hle := nesting_rewrite e q
    revert h hle
    generalize rewrite e q = p
    intro h hle
    have hsingle : parts p = [p] → nesting r ≤ nesting q := by
      intro hp
      rw [hp] at h
      simp only [List.foldl_cons, List.foldl_nil, hsAdd, List.any_nil, Bool.false_eq_true, if_false, List.nil_append, wrap] at h
      cases h
      exact hle
    cases p with
    | leaf l => exact hsingle rfl
    | all => exact hsingle rfl
    | bool c cs =>
      cases c with
      | false => exact hsingle rfl
      | true =>
        by_cases hs : cs.all (·.1 = .should) = true
        · have hp : parts (.bool true cs) = cs.map (·.2) := by show (if _ then _ else _) = _; rw [if_pos hs]
          rw [hp] at h
          have : nesting r ≤ nestingL cs + 1 := by
            refine nesting_wrap h ?_
            intro x hx
            rcases foldl_mem same _ _ x hx with hx | hx
            · cases hx
            · obtain ⟨y, hy, rfl⟩ := List.mem_map.1 hx
              exact nestingL_le.1 (Nat.le_refl _) y hy
          rw [nesting] at hle
          omega
        · exact hsingle (by show (if _ then _ else _) = _; rw [if_neg hs])

/-- A result, or the error of too many clauses. -/
def Done {α : Type} (r : Res α) : Prop := (∃ w, r = .ok w) ∨ r = .raise .state

theorem weighL_done {f : CQ L K → Res (CQ L K)} : ∀ (cs : List (Occur × CQ L K)), (∀ x ∈ cs, Done (f x.2)) → Done (weighL f cs) := by
  intro cs
  induction cs with
  | nil => intro _; exact .inl ⟨_, rfl⟩
  | cons c cs ih =>
    obtain ⟨o, q⟩ := c
    intro h
    rcases h (o, q) (by simp) with ⟨w, hw⟩ | hw
    · rcases ih (fun x hx => h x (List.mem_cons_of_mem _ hx)) with ⟨ws, hws⟩ | hws
      · exact .inl ⟨(o, w) :: ws, by simp only [weighL]; rw [hw, Res.ok_bind, hws, Res.ok_bind]⟩
      · right; simp only [weighL]; rw [hw, Res.ok_bind, hws]; rfl
    · right; simp only [weighL]; rw [hw]; rfl

theorem wrap_done (u : List (CQ L K)) : Done (wrap u) := by
  unfold wrap
  split
  · exact .inl ⟨_, rfl⟩
  · split
    · exact .inr rfl
    · exact .inl ⟨_, rfl⟩

theorem weigh_done_free {same : CQ L K → CQ L K → Bool} (hrefl : ∀ q, same q q = true) {subs : List (K → List L)} (hne : subs ≠ []) :
    ∀ (n : Nat) (q : CQ L K), patternFree q = true → nesting q < n → Done (weigh same subs n q) := by
  intro n
  induction n with
  | zero => intro q _ h; omega
  | succ n ih =>
    intro q hf hn
    rw [weigh]
    rcases wrap_done (uniques same (subs.map fun e => rewrite e q)) with ⟨r, hr⟩ | hr
    · have hr : mseaRewrite same subs q = .ok r := hr
      rw [hr, Res.ok_bind]
      cases r with
      | leaf l => exact .inl ⟨_, rfl⟩
      | all => exact .inl ⟨_, rfl⟩
      | bool c cs =>
        have hle := nesting_msea_free hrefl hne hf hr
        have hfree := patternFree_msea hr
        rw [patternFree, patternFreeL_iff] at hfree
        rcases weighL_done (f := weigh same subs n) cs (fun x hx => ih x.2 (hfree x hx) (by have := nesting_mem (c := c) hx; omega)) with ⟨ws, hws⟩ | hws
        · left; exact ⟨.bool c ws, by dsimp only; rw [hws, Res.ok_bind]⟩
        · right; dsimp only; rw [hws]; rfl
    · right
      have hr : mseaRewrite same subs q = .raise .state := hr
      rw [hr]; rfl

theorem weigh_done {same : CQ L K → CQ L K → Bool} (hrefl : ∀ q, same q q = true) {subs : List (K → List L)} (hne : subs ≠ [])
    (n : Nat) (q : CQ L K) (hn : nesting q + 1 < n) : Done (weigh same subs n q) := by
  cases n with
  | zero => omega
  | succ n =>
    rw [weigh]
    rcases wrap_done (uniques same (subs.map fun e => rewrite e q)) with ⟨r, hr⟩ | hr
    · have hr : mseaRewrite same subs q = .ok r := hr
      rw [hr, Res.ok_bind]
      cases r with
      | leaf l => exact .inl ⟨_, rfl⟩
      | all => exact .inl ⟨_, rfl⟩
      | bool c cs =>
        have hle := nesting_msea hr
        have hfree := patternFree_msea hr
        rw [patternFree, patternFreeL_iff] at hfree
        rcases weighL_done (f := weigh same subs n) cs (fun x hx => weigh_done_free hrefl hne n x.2 (hfree x hx) (by have := nesting_mem (c := c) hx; omega)) with ⟨ws, hws⟩ | hws
        · left; exact ⟨.bool c ws, by dsimp only; rw [hws, Res.ok_bind]⟩
        · right; dsimp only; rw [hws]; rfl
    · right
      have hr : mseaRewrite same subs q = .raise .state := hr
      rw [hr]; rfl

end Ferret.Comb
