import Verif.Lemmas.QueryHeapRewrite

/-! Searching with query objects, once and again. -/

namespace Ferret.QHeap
open Ferret Ferret.Scorer Ferret.Spec

variable {S L : Type} [DecidableEq S]

/-- A query that only prohibits, searched with before. -/
theorem rewriteProhibited_spec {X : XArith S} {expand : L → S → Kind L × S} {b ob : S} {cs : List (Occur × NQ S L)}
    {h h' : Heap S L} {i a : Nat} {js js' : List (Occur × Nat)} {F : List Nat}
    (hg : h[i]? = some (.bool b ob (js ++ [(.must, a)]))) (hs : single cs = none) (hne : cs ≠ [])
    (hp : cs.all (·.1 = .mustNot) = true) (hi : i ∉ F) (hai : a ≠ i) (haF : a ∉ F)
    (ha : h[a]? = some (.leaf .all X.one)) (hd : DoneL X expand h cs js F (h', js')) :
    ∃ r, rewriteMany X i (js ++ [(.must, a)]) h' (js' ++ [(.must, a)]) = .ok r ∧
      Done X expand h (.bool b cs) i (i :: a :: F) r := by
  obtain ⟨F', G, a1, a3, a4, a5, a6, a7, a8⟩ := hd
  simp only [] at a1 a3 a4 a5 a6 a7 a8
  have hil := lt_of_get hg
  have hal := lt_of_get ha
  have hnF : ∀ x, x < h.length → x ∉ F → x ∉ F' := by
    intro x hx hxF hm
    rcases a3 x hm with h1 | h1
    · exact hxF h1
    · omega
  have hnG : ∀ x, x < h.length → x ∉ F → x ∉ G := by
    intro x hx hxF hm
    rcases a7 x hm with h1 | h1
    · exact hnF x hx hxF h1
    · omega
  have hgi : h'[i]? = some (.bool b ob (js ++ [(.must, a)])) := by rw [a5 i hil hi]; exact hg
  have hga : h'[a]? = some (.leaf .all X.one) := by rw [a5 a hal haF]; exact ha
  have hfr : ∀ x, x < h.length → x ∉ i :: a :: F → h'[x]? = h[x]? := by
    intro x hx hxF
    simp only [List.mem_cons, not_or] at hxF
    exact a5 x hx hxF.2.2
  have hsub : ∀ x ∈ i :: a :: F', x ∈ i :: a :: F ∨ h.length ≤ x := by
    intro x hx
    rcases List.mem_cons.1 hx with rfl | hx
    · simp
    rcases List.mem_cons.1 hx with rfl | hx
    · simp
    · rcases a3 x hx with h1 | h1
      · simp [h1]
      · exact .inr h1
  have hkeeps := keeps_bool (b := b) hs
  have hask := asked_many X expand (b := b) hs
  have hpr : (!cs.isEmpty && cs.all (·.1 = .mustNot)) = true := by
    rw [hp]; cases cs with
    | nil => exact absurd rfl hne
    | cons => rfl
  rw [if_pos hpr] at hask
  have hnp : (!(js ++ [(Occur.must, a)]).isEmpty && (js ++ [(Occur.must, a)]).all (·.1 = .mustNot)) = false := by simp
  have hrep : Rep X h' (.bool b cs) i (i :: a :: F') :=
    .prohibited hgi hne hp a1 (hnF i hil hi) hai (hnF a hal haF) hga
  have hT : TreeL h' (NQ.askedL X expand cs ++ [(.must, .leaf .all X.one)]) (js' ++ [(.must, a)]) (G ++ [a]) :=
    a6.append (TreeL.leaf1 hga)
  by_cases hall : cs.all (fun c => c.2.keeps) = true
  · have hjs := a8.2 hall
    subst hjs
    refine ⟨(h', i), ?_, i :: a :: F', i :: (G ++ [a]), hrep, ?_, hsub, a4, hfr, ?_, ?_, ?_, fun _ => hrep.reset (.inl rfl)⟩
    · rw [rewriteMany, copyIf, if_pos rfl, Res.ok_bind]
      simp only []
      rw [hnp]
      rfl
    all_goals try simp only []
    · simp only [boostAt, hgi, hg]
    · rw [hask]
      refine .bool hgi hT ?_
      simp only [List.mem_append, List.mem_singleton, not_or]
      exact ⟨hnG i hil hi, Ne.symm hai⟩
    · intro x hx
      rcases List.mem_cons.1 hx with rfl | hx
      · simp
      rcases List.mem_append.1 hx with hx | hx
      · rcases a7 x hx with h1 | h1
        · simp [h1]
        · exact .inr h1
      · rw [List.mem_singleton] at hx; simp [hx]
    · rw [hkeeps]; simp [hall]
  · have hjs : js' ≠ js := fun e => hall (a8.1 e)
    have hold : ∀ x, x < h'.length → (h' ++ [QObj.bool b ob (js' ++ [(Occur.must, a)])])[x]? = h'[x]? := fun x hx => get_app_lt hx
    have hrep' := hrep.frame (h' := h' ++ [QObj.bool b ob (js' ++ [(Occur.must, a)])]) fun x hx => hold x (hrep.lt x hx)
    have hT' := hT.frame (h' := h' ++ [QObj.bool b ob (js' ++ [(Occur.must, a)])]) fun x hx => hold x (hT.lt x hx)
    refine ⟨(h' ++ [QObj.bool b ob (js' ++ [(Occur.must, a)])], h'.length), ?_, i :: a :: F', h'.length :: (G ++ [a]), hrep', ?_,
      hsub, ?_, ?_, ?_, ?_, ?_, ?_⟩
    · rw [rewriteMany, copyIf, if_neg (by simpa using hjs)]
      simp only [hgi]
      rw [Res.ok_bind]
      simp only []
      rw [hnp]
      rfl
    all_goals try simp only []
    · simp only [boostAt]
      rw [hold i (lt_of_get hgi), hgi, hg]
    · simp; omega
    · intro x hx hxF
      rw [hold x (by omega)]
      exact hfr x hx hxF
    · rw [hask]
      exact .bool (ob := ob) get_app_new hT' (fun hm => by have := hT.lt _ hm; omega)
    · intro x hx
      rcases List.mem_cons.1 hx with rfl | hx
      · right; omega
      rcases List.mem_append.1 hx with hx | hx
      · rcases a7 x hx with h1 | h1
        · simp [h1]
        · exact .inr h1
      · rw [List.mem_singleton] at hx; simp [hx]
    · have hilt := lt_of_get hgi
      rw [hkeeps]; simp only [hall]
      simp; omega
    · intro _
      refine Rep.reset hrep' (.inr fun hm => ?_)
      have := hrep.lt _ hm; omega

/-- The boosts below the root are positive. -/
def below (X : XArith S) : NQ S L → Bool
  | .bool _ cs => NQ.positiveL X cs
  | _ => true

omit [DecidableEq S] in
theorem below_of_positive {X : XArith S} {N : NQ S L} (h : NQ.positive X N = true) : below X N = true ∧ X.pos N.boost = true := by
  cases N with
  | leaf => simp only [NQ.positive] at h; exact ⟨rfl, h⟩
  | expands => simp only [NQ.positive] at h; exact ⟨rfl, h⟩
  | bool b cs => rw [NQ.positive, Bool.and_eq_true] at h; exact ⟨h.2, h.1⟩

omit [DecidableEq S] in
theorem positiveL_mem {X : XArith S} {cs : List (Occur × NQ S L)} (h : NQ.positiveL X cs = true) : ∀ c ∈ cs, NQ.positive X c.2 = true := by
  induction cs with
  | nil => simp
  | cons c cs ih =>
    obtain ⟨o, q⟩ := c
    rw [NQ.positiveL, Bool.and_eq_true] at h
    intro c hc
    rcases List.mem_cons.1 hc with rfl | hc
    · exact h.1
    · exact ih h.2 c hc

omit [DecidableEq S] in
theorem steadyL_mem {X : XArith S} {cs : List (Occur × NQ S L)} (h : NQ.steadyL X cs = true) : ∀ c ∈ cs, NQ.steady X c.2 = true := by
  induction cs with
  | nil => simp
  | cons c cs ih =>
    obtain ⟨o, q⟩ := c
    rw [NQ.steadyL, Bool.and_eq_true] at h
    intro c hc
    rcases List.mem_cons.1 hc with rfl | hc
    · exact h.1
    · exact ih h.2 c hc

omit [DecidableEq S] in
theorem heightL_mem {cs : List (Occur × NQ S L)} : ∀ c ∈ cs, NQ.height c.2 ≤ NQ.heightL cs := by
  induction cs with
  | nil => simp
  | cons c cs ih =>
    obtain ⟨o, q⟩ := c
    rw [NQ.heightL]
    intro c hc
    rcases List.mem_cons.1 hc with rfl | hc
    · exact Nat.le_max_left ..
    · exact Nat.le_trans (ih c hc) (Nat.le_max_right ..)

omit [DecidableEq S] in
theorem height_pos (N : NQ S L) : 1 ≤ N.height := by
  cases N <;> simp [NQ.height]

omit [DecidableEq S] in
theorem withBoost_below {X : XArith S} {N : NQ S L} (x : S) : below X (NQ.withBoost x N) = below X N := by
  cases N <;> rfl

omit [DecidableEq S] in
theorem bool_boost {h : Heap S L} {i : Nat} {b b' ob : S} {cs : List (Occur × NQ S L)} {js : List (Occur × Nat)}
    (hg : h[i]? = some (.bool b' ob js)) (hb : boostAt h i = some (NQ.bool b cs).boost) : b' = b := by
  simpa [boostAt, hg, QObj.boost, NQ.boost] using hb

theorem rewriteQ_spec {X : XArith S} (hX : Exact X) (expand : L → S → Kind L × S) :
    ∀ n (N : NQ S L) h i F, N.height ≤ n → Rep X h N i F → boostAt h i = some N.boost → NQ.steady X N = true →
      below X N = true → ∃ r, rewriteQ X expand n h i = .ok r ∧ Done X expand h N i F r := by
  intro n
  induction n with
  | zero => intro N h i F hn; have := height_pos N; omega
  | succ n ih =>
    intro N h i F hn hr hb hst hpos
    cases hr with
    | @leaf k b b' _ hg =>
      have hbb : b' = b := by simpa [boostAt, hg, QObj.boost, NQ.boost] using hb
      subst hbb
      refine ⟨(h, i), by rw [rewriteQ]; simp only [hg], [i], [i], .leaf hg, rfl, fun x hx => .inl hx, Nat.le_refl _,
        fun _ _ _ => rfl, by rw [NQ.asked]; exact .leaf hg, fun x hx => .inl hx, by simp [NQ.keeps],
        fun _ => Rep.reset (.leaf hg) (.inl rfl)⟩
    | @expands l b b' _ hg =>
      have hbb : b' = b := by simpa [boostAt, hg, QObj.boost, NQ.boost] using hb
      subst hbb
      have hil := lt_of_get hg
      have hg' : (h ++ [QObj.leaf (expand l b').1 (expand l b').2])[i]? = some (.expands l b') := by rw [get_app_lt hil]; exact hg
      refine ⟨(h ++ [.leaf (expand l b').1 (expand l b').2], h.length), by rw [rewriteQ]; simp only [hg], [i], [h.length],
        .expands hg', ?_, fun x hx => .inl hx, ?_, fun x hx _ => get_app_lt hx, ?_, ?_, ?_,
        fun _ => Rep.reset (.expands hg') (.inr ?_)⟩
      · simp only [boostAt, hg, hg']
      · simp
      · rw [NQ.asked]; exact .leaf get_app_new
      · intro x hx; rw [List.mem_singleton] at hx; right; omega
      · simp [NQ.keeps]; omega
      · simp; omega
    | @one b b' ob o c _ j F hg ho hr hi hk =>
      have hbb := bool_boost hg hb
      subst hbb
      have hpc : NQ.positive X c = true := positiveL_mem hpos (o, c) (by simp)
      have hst' := hst
      rw [NQ.steady, Bool.and_eq_true] at hst'
      have hsc : NQ.steady X c = true := steadyL_mem hst'.2 (o, c) (by simp)
      have hhc : c.height ≤ n := by
        have := heightL_mem (cs := [(o, c)]) (o, c) (by simp)
        rw [NQ.height] at hn
        simp only [] at this
        omega
      obtain ⟨r, e, hd⟩ := rewriteOne_spec (n := n) (expand := expand) hX hg ho hr hi hk hst
        (fun e => by have := (below_of_positive hpc).2; rw [e, hX.pos_zero] at this; cases this) (by
          rintro c' (rfl | ⟨hkc, x, rfl⟩) hrc hbc
          · exact ih c' h j F hhc hrc hbc hsc (below_of_positive hpc).1
          · exact ih _ h j F (by rw [withBoost_height]; exact hhc) hrc hbc
              (by rw [withBoost_steady X x (keeps_oneClause hkc)]; exact hsc)
              (by rw [withBoost_below]; exact (below_of_positive hpc).1))
      refine ⟨r, ?_, hd⟩
      rw [rewriteQ]
      simp only [hg]
      have : single [(o, j)] = some j := by simp [single, ho]
      simp only [this]
      exact e
    | @many b b' ob cs _ js F hg hs hr hi =>
      have hbb := bool_boost hg hb
      subst hbb
      rw [NQ.steady, Bool.and_eq_true] at hst
      rw [NQ.height] at hn
      obtain ⟨⟨h', js'⟩, e, hd⟩ := rewriteEach_spec (expand := expand) (rewriteQ X expand n) cs (by
        intro c hc h j F hrc hbc
        have := heightL_mem c hc
        exact ih c.2 h j F (by omega) hrc hbc (steadyL_mem hst.2 c hc) (below_of_positive (positiveL_mem hpos c hc)).1) h js F hr
      obtain ⟨r, e2, hd2⟩ := rewriteMany_spec hg hs hr hi hd
      refine ⟨r, ?_, hd2⟩
      have hsj : single js = none := by
        have := single_occurs hr.occurs
        rw [hs] at this
        cases hq : single js with
        | none => rfl
        | some q => rw [hq] at this; simp at this
      rw [rewriteQ]
      simp only [hg, hsj]
      rw [e, Res.ok_bind]
      exact e2
    | @prohibited b b' ob cs _ js a F hg hne hp hr hi hai haF ha =>
      have hbb := bool_boost hg hb
      subst hbb
      rw [NQ.steady, Bool.and_eq_true] at hst
      rw [NQ.height] at hn
      have hs : single cs = none := by
        cases hq : single cs with
        | none => rfl
        | some q =>
          obtain ⟨o, ho, rfl⟩ := single_eq_some hq
          simp [ho] at hp
      obtain ⟨⟨h', js'⟩, e, hd⟩ := rewriteEach_spec (expand := expand) (rewriteQ X expand n) cs (by
        intro c hc h j F hrc hbc
        have := heightL_mem c hc
        exact ih c.2 h j F (by omega) hrc hbc (steadyL_mem hst.2 c hc) (below_of_positive (positiveL_mem hpos c hc)).1) h js F hr
      obtain ⟨r, e2, hd2⟩ := rewriteProhibited_spec hg hs hne hp hi hai haF ha hd
      refine ⟨r, ?_, hd2⟩
      have hsj : single (js ++ [(Occur.must, a)]) = none := by
        have := hr.occurs
        cases js with
        | nil =>
          cases cs with
          | nil => exact absurd rfl hne
          | cons => simp at this
        | cons j js => cases js <;> rfl
      have hga : h'[a]? = some (.leaf .all X.one) := by
        obtain ⟨-, -, -, -, -, a5, -⟩ := hd
        exact (a5 a (lt_of_get ha) haF).trans ha
      have hn1 : ∃ m, n = m + 1 := by
        cases cs with
        | nil => exact absurd rfl hne
        | cons c cs =>
          have h1 := heightL_mem (cs := c :: cs) c (by simp)
          have h2 := height_pos c.2
          exact ⟨n - 1, by omega⟩
      obtain ⟨m, rfl⟩ := hn1
      rw [rewriteQ]
      simp only [hg, hsj]
      rw [rewriteEach_append _ h h' js js' _ e, rewriteEach]
      have hleaf : rewriteQ X expand (m + 1) h' a = .ok (h', a) := by rw [rewriteQ]; simp only [hga]
      rw [hleaf, Res.ok_bind, rewriteEach, Res.ok_bind, Res.ok_bind, Res.ok_bind]
      exact e2

/-! ### What rewriting leaves alone -/

mutual
/-- Nothing is left to rewrite. -/
def settled : EQuery S L → Bool
  | .leaf _ _ => true
  | .bool _ cs => (single cs).isNone && !(!cs.isEmpty && cs.all (·.1 = .mustNot)) && settledL cs
def settledL : List (Occur × EQuery S L) → Bool
  | [] => true
  | (_, q) :: cs => settled q && settledL cs
end

mutual
def eheight : EQuery S L → Nat
  | .leaf _ _ => 1
  | .bool _ cs => eheightL cs + 1
def eheightL : List (Occur × EQuery S L) → Nat
  | [] => 0
  | (_, q) :: cs => Nat.max (eheight q) (eheightL cs)
end

omit [DecidableEq S] in
theorem settledL_append (cs cs' : List (Occur × EQuery S L)) : settledL (cs ++ cs') = (settledL cs && settledL cs') := by
  induction cs with
  | nil => simp [settledL]
  | cons c cs ih => obtain ⟨o, q⟩ := c; simp [settledL, ih, Bool.and_assoc]

omit [DecidableEq S] in
theorem eheightL_append (cs cs' : List (Occur × EQuery S L)) : eheightL (cs ++ cs') = Nat.max (eheightL cs) (eheightL cs') := by
  induction cs with
  | nil => simp [eheightL]
  | cons c cs ih =>
    obtain ⟨o, q⟩ := c
    rw [List.cons_append, eheightL, ih, eheightL]
    exact (Nat.max_assoc ..).symm

omit [DecidableEq S] in
theorem settled_withBoost (x : S) (T : EQuery S L) : settled (EQuery.withBoost x T) = settled T ∧ eheight (EQuery.withBoost x T) = eheight T := by
  cases T <;> simp [EQuery.withBoost, settled, eheight]

mutual
theorem asked_settled (X : XArith S) (expand : L → S → Kind L × S) :
    ∀ N : NQ S L, settled (NQ.asked X expand N) = true ∧ eheight (NQ.asked X expand N) ≤ N.height
  | .leaf k b => by simp [NQ.asked, settled, eheight, NQ.height]
  | .expands l b => by simp [NQ.asked, settled, eheight, NQ.height]
  | .bool b cs => by
    have hL := askedL_settled X expand cs
    cases hs : single cs with
    | some q =>
      obtain ⟨o, ho, rfl⟩ := single_eq_some hs
      rw [asked_one X expand ho, boostAsk_eq, (settled_withBoost _ _).1, (settled_withBoost _ _).2, NQ.height, NQ.heightL]
      have hq : settled (NQ.asked X expand q) = true ∧ eheight (NQ.asked X expand q) ≤ NQ.height q := by
        have h1 := hL.1
        have h2 := hL.2
        rw [NQ.askedL, NQ.askedL, settledL, settledL, Bool.and_true] at h1
        rw [NQ.askedL, NQ.askedL, eheightL, eheightL, NQ.heightL, NQ.heightL] at h2
        exact ⟨h1, by simpa using h2⟩
      refine ⟨hq.1, ?_⟩
      exact Nat.le_succ_of_le (Nat.le_trans hq.2 (Nat.le_max_left ..))
    | none =>
      rw [asked_many X expand hs, settled, eheight, NQ.height, settledL_append, eheightL_append]
      have hm : (NQ.askedL X expand cs).map (·.1) = cs.map (·.1) := by rw [askedL_eq]; simp [Function.comp_def]
      by_cases hpr : (!cs.isEmpty && cs.all (·.1 = .mustNot)) = true
      · rw [if_pos hpr]
        have hne : cs ≠ [] := by rintro rfl; simp at hpr
        refine ⟨?_, ?_⟩
        · simp only [hL.1, settledL, settled, Bool.and_true]
          have : (single (NQ.askedL X expand cs ++ [(.must, .leaf .all X.one)])).isNone = true := by
            rw [askedL_eq]
            rcases cs with _ | ⟨c, _ | ⟨c', cs⟩⟩
            · exact absurd rfl hne
            · rfl
            · rfl
          rw [this]
          simp
        · simp only [eheightL, eheight]
          have h1 : 1 ≤ NQ.heightL cs := by
            cases cs with
            | nil => exact absurd rfl hne
            | cons c cs => exact Nat.le_trans (height_pos c.2) (heightL_mem c (by simp))
          have := hL.2
          have h2 : (eheightL (NQ.askedL X expand cs)).max (Nat.max 1 0) ≤ NQ.heightL cs := Nat.max_le.2 ⟨this, by simpa using h1⟩
          omega
      · rw [if_neg hpr]
        refine ⟨?_, ?_⟩
        · rw [List.append_nil, hL.1, all_occurs hm, single_occurs hm, hs]
          simp only [settledL, Bool.and_true]
          simp only [Bool.not_eq_true] at hpr
          simp [hpr]
        · exact Nat.succ_le_succ (Nat.max_le.2 ⟨hL.2, by simp [eheightL]⟩)
theorem askedL_settled (X : XArith S) (expand : L → S → Kind L × S) :
    ∀ cs : List (Occur × NQ S L), settledL (NQ.askedL X expand cs) = true ∧ eheightL (NQ.askedL X expand cs) ≤ NQ.heightL cs
  | [] => by simp [NQ.askedL, settledL, eheightL, NQ.heightL]
  | (o, q) :: cs => by
    have h1 := asked_settled X expand q
    have h2 := askedL_settled X expand cs
    rw [NQ.askedL, settledL, eheightL, NQ.heightL, h1.1, h2.1]
    exact ⟨rfl, Nat.max_le.2 ⟨Nat.le_trans h1.2 (Nat.le_max_left ..), Nat.le_trans h2.2 (Nat.le_max_right ..)⟩⟩
end

omit [DecidableEq S] in
theorem TreeL.occurs {h : Heap S L} {cs js G} (hr : TreeL h cs js G) : js.map (·.1) = cs.map (·.1) := by
  induction cs generalizing js G with
  | nil => cases hr; rfl
  | cons c cs ih =>
    cases hr with
    | cons _ hrs => simp [ih hrs]

theorem rewriteQ_tree (X : XArith S) (expand : L → S → Kind L × S) : ∀ n (T : EQuery S L) h i G, eheight T ≤ n → Tree h T i G →
    settled T = true → rewriteQ X expand n h i = .ok (h, i) := by
  intro n
  induction n with
  | zero => intro T h i G hn; cases T <;> simp [eheight] at hn
  | succ n ih =>
    intro T h i G hn hr hs
    cases hr with
    | leaf hg => rw [rewriteQ]; simp only [hg]
    | @bool b ob cs _ js G hg hr hi =>
      rw [settled, Bool.and_eq_true, Bool.and_eq_true] at hs
      rw [eheight] at hn
      have hsj : single js = none := by
        have := single_occurs hr.occurs
        rw [hs.1.1] at this
        simpa using this
      have hp := all_occurs hr.occurs
      have heach : ∀ (cs : List (Occur × EQuery S L)) js G, eheightL cs ≤ n → settledL cs = true → TreeL h cs js G →
          rewriteEach (rewriteQ X expand n) h js = .ok (h, js) := by
        intro cs
        induction cs with
        | nil => intro js G _ _ hr; cases hr; rfl
        | cons c cs ihc =>
          intro js G hn hs hr
          cases hr with
          | cons hr hrs =>
            rw [settledL, Bool.and_eq_true] at hs
            rw [eheightL] at hn
            have hn := Nat.max_le.1 hn
            rw [rewriteEach, ih _ h _ _ hn.1 hr hs.1, Res.ok_bind]
            simp only []
            rw [ihc _ _ hn.2 hs.2 hrs, Res.ok_bind]
      rw [rewriteQ]
      simp only [hg, hsj]
      rw [heach cs js G (by omega) hs.2 hr, Res.ok_bind, rewriteMany, copyIf]
      simp only [if_true]
      rw [Res.ok_bind]
      simp only []
      rw [hp, if_neg]
      have := hs.1.2
      intro h1
      rw [h1] at this
      cases this

theorem iseaRewrite_tree (X : XArith S) (expand : L → S → Kind L × S) {f n : Nat} {T : EQuery S L} {h i G} (hn : eheight T ≤ f)
    (hr : Tree h T i G) (hs : settled T = true) : iseaRewrite X expand f (n + 1) h i = .ok (h, i) := by
  rw [iseaRewrite, rewriteQ_tree X expand f T h i G hn hr hs, Res.ok_bind]
  simp

theorem weigh_tree (X : XArith S) (expand : L → S → Kind L × S) (f : Nat) : ∀ n (T : EQuery S L) h i G, eheight T ≤ n → n ≤ f →
    Tree h T i G → settled T = true → weigh X expand f n h i = .ok (h, T) := by
  intro n
  induction n with
  | zero => intro T h i G hn; cases T <;> simp [eheight] at hn
  | succ n ih =>
    intro T h i G hn hf hr hs
    obtain ⟨m, rfl⟩ : ∃ m, f = m + 1 := ⟨f - 1, by omega⟩
    rw [weigh, iseaRewrite_tree X expand (by omega) hr hs, Res.ok_bind]
    cases hr with
    | leaf hg => simp only [hg]
    | @bool b ob cs _ js G hg hr hi =>
      rw [settled, Bool.and_eq_true, Bool.and_eq_true] at hs
      rw [eheight] at hn
      have heach : ∀ (cs : List (Occur × EQuery S L)) js G, eheightL cs ≤ n → settledL cs = true → TreeL h cs js G →
          weighEach (weigh X expand (m + 1) n) h js = .ok (h, cs) := by
        intro cs
        induction cs with
        | nil => intro js G _ _ hr; cases hr; rfl
        | cons c cs ihc =>
          intro js G hn hs hr
          cases hr with
          | cons hr hrs =>
            rw [settledL, Bool.and_eq_true] at hs
            rw [eheightL] at hn
            have hn := Nat.max_le.1 hn
            rw [weighEach, ih _ h _ _ hn.1 (by omega) hr hs.1, Res.ok_bind]
            simp only []
            rw [ihc _ _ hn.2 hs.2 hrs, Res.ok_bind]
      simp only [hg]
      rw [heach cs js G (by omega) hs.2 hr, Res.ok_bind]

/-- Making the weights of a query: it stays what it is, and what it asks for is weighed. -/
theorem weigh_spec {X : XArith S} (hX : Exact X) (expand : L → S → Kind L × S) {f : Nat} {N : NQ S L} {h i F} (hf : N.height < f)
    (hr : Rep X h N i F) (hb : boostAt h i = some N.boost) (hst : NQ.steady X N = true) (hpos : NQ.positive X N = true) :
    ∃ h' F', weigh X expand f f h i = .ok (h', NQ.asked X expand N) ∧ Rep X h' N i F' ∧ boostAt h' i = some N.boost ∧
      (∀ x ∈ F', x ∈ F ∨ h.length ≤ x) ∧ h.length ≤ h'.length ∧ (∀ x, x < h.length → x ∉ F → h'[x]? = h[x]?) := by
  obtain ⟨⟨h', q⟩, e, F', G, a1, a2, a3, a4, a5, a6, -, -, -⟩ :=
    rewriteQ_spec hX expand f N h i F (by omega) hr hb hst (below_of_positive hpos).1
  simp only [] at a1 a2 a3 a4 a5 a6
  have hset := asked_settled X expand N
  refine ⟨h', F', ?_, a1, a2.trans hb, a3, a4, a5⟩
  obtain ⟨m, rfl⟩ : ∃ m, f = m + 1 + 1 := by
    have := height_pos N
    exact ⟨f - 2, by omega⟩
  have h1 : iseaRewrite X expand (m + 1 + 1) (m + 1 + 1) h i = .ok (h', q) := by
    rw [iseaRewrite, e, Res.ok_bind]
    by_cases hq : q = i
    · simp [hq]
    · simp only [hq, if_false]
      exact iseaRewrite_tree X expand (by omega) a6 hset.1
  have h2 := weigh_tree X expand (m + 1 + 1) (m + 1 + 1) _ h' q G (by omega) (Nat.le_refl _) a6 hset.1
  rw [weigh, iseaRewrite_tree X expand (by omega) a6 hset.1, Res.ok_bind] at h2
  rw [weigh, h1, Res.ok_bind]
  exact h2

/-! ### Queries as they are made -/

mutual
theorem make_spec (X : XArith S) : ∀ (N : NQ S L) (h : Heap S L), ∃ F, Rep X (NQ.make X h N).1 N (NQ.make X h N).2 F ∧
    boostAt (NQ.make X h N).1 (NQ.make X h N).2 = some N.boost ∧ (∀ x ∈ F, h.length ≤ x) ∧
    h.length ≤ (NQ.make X h N).1.length ∧ (∀ x, x < h.length → (NQ.make X h N).1[x]? = h[x]?)
  | .leaf k b, h => by
    refine ⟨[h.length], ?_, ?_, ?_, ?_, ?_⟩ <;> try simp only [NQ.make]
    · exact .leaf get_app_new
    · simp [boostAt, QObj.boost, NQ.boost]
    · simp
    · simp
    · exact fun x hx => get_app_lt hx
  | .expands l b, h => by
    refine ⟨[h.length], ?_, ?_, ?_, ?_, ?_⟩ <;> try simp only [NQ.make]
    · exact .expands get_app_new
    · simp [boostAt, QObj.boost, NQ.boost]
    · simp
    · simp
    · exact fun x hx => get_app_lt hx
  | .bool b cs, h => by
    obtain ⟨F, hr, h1, h2, h3⟩ := makeL_spec X cs h
    have hb : ∀ o : QObj S L, ∀ x ∈ F, ((NQ.makeL X h cs).1 ++ [o])[x]? = (NQ.makeL X h cs).1[x]? :=
      fun o x hx => get_app_lt (hr.lt x hx)
    have hr' := hr.frame (hb (.bool b X.zero (NQ.makeL X h cs).2))
    have hn : (NQ.makeL X h cs).1.length ∉ F := fun hm => by have := hr.lt _ hm; omega
    refine ⟨(NQ.makeL X h cs).1.length :: F, ?_, ?_, ?_, ?_, ?_⟩ <;> try simp only [NQ.make]
    · cases hs : single cs with
      | none => exact .many get_app_new hs hr' hn
      | some q =>
        obtain ⟨o, ho, rfl⟩ := single_eq_some hs
        cases hL : (NQ.makeL X h [(o, q)]) with
        | mk hh js =>
          rw [hL] at hr' hn
          simp only [] at hr' hn ⊢
          cases hr' with
          | @cons _ _ j F1 _ js1 F2 hrc hbc hrs hd =>
            cases hrs
            rw [List.append_nil] at hn ⊢
            exact .one get_app_new ho hrc hn ⟨fun _ => .inr ⟨rfl, hbc⟩, fun _ => hbc⟩
    · simp [boostAt, QObj.boost, NQ.boost]
    · intro x hx
      rcases List.mem_cons.1 hx with rfl | hx
      · exact h2
      · exact h1 x hx
    · simp; omega
    · intro x hx
      rw [get_app_lt (by omega)]
      exact h3 x hx
theorem makeL_spec (X : XArith S) : ∀ (cs : List (Occur × NQ S L)) (h : Heap S L), ∃ F, RepL X (NQ.makeL X h cs).1 cs (NQ.makeL X h cs).2 F ∧
    (∀ x ∈ F, h.length ≤ x) ∧ h.length ≤ (NQ.makeL X h cs).1.length ∧ (∀ x, x < h.length → (NQ.makeL X h cs).1[x]? = h[x]?)
  | [], h => by
    refine ⟨[], ?_, by simp, ?_, ?_⟩ <;> try simp only [NQ.makeL]
    · exact .nil
    · exact Nat.le_refl _
    · exact fun _ _ => trivial
  | (o, q) :: cs, h => by
    obtain ⟨F1, a1, a2, a3, a4, a5⟩ := make_spec X q h
    obtain ⟨F2, b1, b2, b3, b4⟩ := makeL_spec X cs (NQ.make X h q).1
    refine ⟨F1 ++ F2, ?_, ?_, ?_, ?_⟩ <;> try simp only [NQ.makeL]
    · refine .cons (a1.frame fun x hx => b4 x (a1.lt x hx)) ?_ b1 ?_
      · rw [boostAt_congr (b4 _ (a1.lt _ a1.mem))]; exact a2
      · intro x hx hx2
        have := a1.lt x hx
        have := b2 x hx2
        omega
    · intro x hx
      rcases List.mem_append.1 hx with hx | hx
      · exact a3 x hx
      · have := b2 x hx; omega
    · omega
    · intro x hx
      rw [b4 x (by omega)]
      exact a5 x hx
end

omit [DecidableEq S] in
theorem makeAll_eq (X : XArith S) (Ns : List (NQ S L)) (h : Heap S L) :
    (NQ.makeL X h (Ns.map fun N => (Occur.should, N))) = ((NQ.makeAll X h Ns).1, (NQ.makeAll X h Ns).2.map fun i => (Occur.should, i)) := by
  induction Ns generalizing h with
  | nil => simp [NQ.makeL, NQ.makeAll]
  | cons N Ns ih => simp only [List.map_cons, NQ.makeL, NQ.makeAll, ih]

/-! ### Histories -/

omit [DecidableEq S] in
/-- One of several queries, and what is left when only it changes. -/
theorem RepL.update {X : XArith S} {h : Heap S L} {Ns : List (NQ S L)} {ids : List Nat} {F}
    (hr : RepL X h (Ns.map fun N => (Occur.should, N)) (ids.map fun i => (Occur.should, i)) F) {p : NQ S L × Nat} (hp : p ∈ Ns.zip ids) :
    ∃ F1, Rep X h p.1 p.2 F1 ∧ boostAt h p.2 = some p.1.boost ∧ (∀ x ∈ F1, x ∈ F) ∧
      ∀ h' F1', Rep X h' p.1 p.2 F1' → boostAt h' p.2 = some p.1.boost → (∀ x ∈ F1', x ∈ F1 ∨ h.length ≤ x) →
        (∀ x, x < h.length → x ∉ F1 → h'[x]? = h[x]?) →
        ∃ F', RepL X h' (Ns.map fun N => (Occur.should, N)) (ids.map fun i => (Occur.should, i)) F' ∧ (∀ x ∈ F', x ∈ F ∨ h.length ≤ x) := by
  induction Ns generalizing ids F with
  | nil => simp at hp
  | cons N Ns ih =>
    cases ids with
    | nil => simp at hp
    | cons i ids =>
      simp only [List.map_cons] at hr ⊢
      cases hr with
      | @cons _ _ _ F1 _ _ F2 hrc hb hrs hd =>
        simp only [List.zip_cons_cons, List.mem_cons] at hp
        rcases hp with rfl | hp
        · refine ⟨F1, hrc, hb, fun x hx => List.mem_append.2 (.inl hx), fun h' F1' c1 c2 c3 c4 => ?_⟩
          refine ⟨F1' ++ F2, .cons c1 c2 (hrs.frame fun x hx => c4 x (hrs.lt x hx) (fun hx1 => hd x hx1 hx)) ?_, ?_⟩
          · intro x hx hx2
            rcases c3 x hx with h1 | h1
            · exact hd x h1 hx2
            · have := hrs.lt x hx2; omega
          · intro x hx
            rcases List.mem_append.1 hx with hx | hx
            · rcases c3 x hx with h1 | h1
              · exact .inl (List.mem_append.2 (.inl h1))
              · exact .inr h1
            · exact .inl (List.mem_append.2 (.inr hx))
        · obtain ⟨Fp, d1, d2, d3, d4⟩ := ih hrs hp
          refine ⟨Fp, d1, d2, fun x hx => List.mem_append.2 (.inr (d3 x hx)), fun h' F1' c1 c2 c3 c4 => ?_⟩
          obtain ⟨F2', e1, e2⟩ := d4 h' F1' c1 c2 c3 c4
          have hfr : ∀ x ∈ F1, h'[x]? = h[x]? := fun x hx => c4 x (hrc.lt x hx) (fun hx1 => hd x hx (d3 x hx1))
          refine ⟨F1 ++ F2', .cons (hrc.frame hfr) ?_ e1 ?_, ?_⟩
          · rw [boostAt_congr (hfr _ hrc.mem)]; exact hb
          · intro x hx hx2
            rcases e2 x hx2 with h1 | h1
            · exact hd x hx h1
            · have := hrc.lt x hx; omega
          · intro x hx
            rcases List.mem_append.1 hx with hx | hx
            · exact .inl (List.mem_append.2 (.inl hx))
            · rcases e2 x hx with h1 | h1
              · exact .inl (List.mem_append.2 (.inr h1))
              · exact .inr h1

theorem searchesObj_spec {X : XArith S} (hX : Exact X) (expand : L → S → Kind L × S) (ix : EIx S L) {f : Nat} {Ns : List (NQ S L)}
    {ids : List Nat} (hits : NQ S L → List (Int × S))
    (hN : ∀ N ∈ Ns, NQ.steady X N = true ∧ NQ.positive X N = true ∧ N.height < f ∧ searchQuery X ix (NQ.asked X expand N) = .ok (hits N)) :
    ∀ (hist : List (NQ S L × Nat)) h F, (∀ p ∈ hist, p ∈ Ns.zip ids) →
      RepL X h (Ns.map fun N => (Occur.should, N)) (ids.map fun i => (Occur.should, i)) F →
      searchesObj X expand ix f h (hist.map (·.2)) = .ok (hist.map fun p => hits p.1) := by
  intro hist
  induction hist with
  | nil => intro h F _ _; rfl
  | cons p hist ih =>
    intro h F hp hr
    have hpm := hp p (by simp)
    obtain ⟨h1, h2, h3, h4⟩ := hN p.1 (List.of_mem_zip hpm).1
    obtain ⟨F1, d1, d2, -, d4⟩ := hr.update hpm
    obtain ⟨h', F1', e1, e2, e3, e4, e5, e6⟩ := weigh_spec hX expand h3 d1 d2 h1 h2
    obtain ⟨F', g1, -⟩ := d4 h' F1' e2 e3 e4 e6
    rw [List.map_cons, searchesObj, searchObj, e1, Res.ok_bind]
    simp only []
    rw [h4, Res.ok_bind, Res.ok_bind]
    simp only []
    rw [ih h' F' (fun p hp' => hp p (by simp [hp'])) g1, Res.ok_bind]
    rfl

end Ferret.QHeap
