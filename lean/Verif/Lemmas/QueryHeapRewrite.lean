import Verif.Lemmas.QueryHeap
import Verif.Spec.Explain

/-! Rewriting keeps what the objects stand for, and gives what is asked. -/

namespace Ferret.QHeap
open Ferret Ferret.Scorer Ferret.Spec

variable {S L : Type}

/-- What rewriting object `i` gives. -/
def Done (X : XArith S) (expand : L → S → Kind L × S) (h : Heap S L) (N : NQ S L) (i : Nat) (F : List Nat) (r : Heap S L × Nat) : Prop :=
  ∃ F' G, Rep X r.1 N i F' ∧ boostAt r.1 i = boostAt h i ∧ (∀ x ∈ F', x ∈ F ∨ h.length ≤ x) ∧ h.length ≤ r.1.length ∧
    (∀ x, x < h.length → x ∉ F → r.1[x]? = h[x]?) ∧ Tree r.1 (NQ.asked X expand N) r.2 G ∧
    (∀ x ∈ G, x ∈ F' ∨ h.length ≤ x) ∧ (r.2 = i ↔ N.keeps = true) ∧
    (NQ.resets X N = true → ∀ o, r.1[r.2]? = some o → ∀ x, Rep X (r.1.set r.2 (o.withBoost x)) N i F')

/-- What rewriting the clauses gives. -/
def DoneL (X : XArith S) (expand : L → S → Kind L × S) (h : Heap S L) (cs : List (Occur × NQ S L)) (js : List (Occur × Nat))
    (F : List Nat) (r : Heap S L × List (Occur × Nat)) : Prop :=
  ∃ F' G, RepL X r.1 cs js F' ∧ (∀ x ∈ F', x ∈ F ∨ h.length ≤ x) ∧ h.length ≤ r.1.length ∧
    (∀ x, x < h.length → x ∉ F → r.1[x]? = h[x]?) ∧ TreeL r.1 (NQ.askedL X expand cs) r.2 G ∧
    (∀ x ∈ G, x ∈ F' ∨ h.length ≤ x) ∧ (r.2 = js ↔ cs.all (fun c => c.2.keeps) = true)

theorem rewriteEach_spec {X : XArith S} {expand : L → S → Kind L × S} (f : Heap S L → Nat → Res (Heap S L × Nat))
    (cs : List (Occur × NQ S L))
    (hf : ∀ c ∈ cs, ∀ h j F, Rep X h c.2 j F → boostAt h j = some c.2.boost → ∃ r, f h j = .ok r ∧ Done X expand h c.2 j F r) :
    ∀ h js F, RepL X h cs js F → ∃ r, rewriteEach f h js = .ok r ∧ DoneL X expand h cs js F r := by
  induction cs with
  | nil =>
    intro h js F hr
    cases hr
    exact ⟨(h, []), rfl, [], [], .nil, by simp, Nat.le_refl _, fun _ _ _ => rfl, by rw [NQ.askedL]; exact .nil, by simp, by simp⟩
  | cons c cs ih =>
    intro h js F hr
    cases hr with
    | @cons o c j F1 _ js F2 hr hb hrs hd =>
      obtain ⟨⟨h1, q⟩, e1, F1', G1, a1, a2, a3, a4, a5, a6, a7, a8, -⟩ := hf (o, c) (by simp) h j F1 hr hb
      simp only [] at a1 a2 a3 a4 a5 a6 a7 a8
      have hF2 : ∀ x ∈ F2, h1[x]? = h[x]? := fun x hx => a5 x (hrs.lt x hx) (fun hx1 => hd x hx1 hx)
      obtain ⟨⟨h2, js'⟩, e2, F2', G2, b1, b3, b4, b5, b6, b7, b8⟩ :=
        ih (fun c hc => hf c (List.mem_cons_of_mem _ hc)) h1 js F2 (hrs.frame hF2)
      simp only [] at b1 b3 b4 b5 b6 b7 b8
      have hn : ∀ x, x ∈ F1' ∨ h.length ≤ x → x ∉ F2 := by
        intro x hx hx2
        have := hrs.lt x hx2
        rcases hx with hx | hx
        · rcases a3 x hx with hx | hx
          · exact hd x hx hx2
          · omega
        · omega
      have hF1 : ∀ x ∈ F1', h2[x]? = h1[x]? := fun x hx => b5 x (a1.lt x hx) (hn x (.inl hx))
      have hG1 : ∀ x ∈ G1, h2[x]? = h1[x]? := fun x hx => b5 x (a6.lt x hx) (hn x (a7 x hx))
      refine ⟨(h2, (o, q) :: js'), ?_, F1' ++ F2', G1 ++ G2, ?_, ?_, ?_, ?_, ?_, ?_, ?_⟩
      · rw [rewriteEach, e1, Res.ok_bind, e2, Res.ok_bind]
      · refine .cons (a1.frame hF1) ?_ b1 ?_
        · rw [boostAt_congr (hF1 _ a1.mem), a2]; exact hb
        · intro x hx hx2
          rcases b3 x hx2 with hx2 | hx2
          · exact hn x (.inl hx) hx2
          · have := a1.lt x hx; omega
      · intro x hx
        rcases List.mem_append.1 hx with hx | hx
        · rcases a3 x hx with hx | hx
          · exact .inl (List.mem_append.2 (.inl hx))
          · exact .inr hx
        · rcases b3 x hx with hx | hx
          · exact .inl (List.mem_append.2 (.inr hx))
          · right; omega
      · simp only []; omega
      · intro x hx hxF
        simp only [List.mem_append, not_or] at hxF
        simp only []
        rw [b5 x (by omega) hxF.2, a5 x hx hxF.1]
      · rw [NQ.askedL]
        exact .cons (a6.frame hG1) b6
      · intro x hx
        rcases List.mem_append.1 hx with hx | hx
        · rcases a7 x hx with hx | hx
          · exact .inl (List.mem_append.2 (.inl hx))
          · exact .inr hx
        · rcases b7 x hx with hx | hx
          · exact .inl (List.mem_append.2 (.inr hx))
          · right; omega
      · simp only [List.cons.injEq, Prod.mk.injEq, true_and, List.all_cons, Bool.and_eq_true]
        rw [a8, b8]

theorem RepL.occurs {X : XArith S} {h : Heap S L} {cs js F} : RepL X h cs js F → js.map (·.1) = cs.map (·.1) := by
  intro hr
  induction cs generalizing js F with
  | nil => cases hr; rfl
  | cons c cs ih =>
    cases hr with
    | cons _ _ hrs _ => simp [ih hrs]

theorem single_occurs {α β : Type} {cs : List (Occur × α)} {js : List (Occur × β)} (h : js.map (·.1) = cs.map (·.1)) :
    (single js).isNone = (single cs).isNone := by
  rcases cs with _ | ⟨⟨o, a⟩, _ | ⟨c, cs⟩⟩ <;> rcases js with _ | ⟨⟨o', a'⟩, _ | ⟨c', cs'⟩⟩ <;> simp at h <;> simp [single]
  subst h
  by_cases ho : o' = .mustNot <;> simp [ho]

theorem all_occurs {α β : Type} {cs : List (Occur × α)} {js : List (Occur × β)} (h : js.map (·.1) = cs.map (·.1)) :
    (!js.isEmpty && js.all (·.1 = .mustNot)) = (!cs.isEmpty && cs.all (·.1 = .mustNot)) := by
  induction cs generalizing js with
  | nil => cases js <;> simp at h ⊢
  | cons c cs ih =>
    cases js with
    | nil => simp at h
    | cons j js =>
      simp only [List.map_cons, List.cons.injEq] at h
      have h2 : js.all (·.1 = .mustNot) = cs.all (·.1 = .mustNot) := by
        have e1 : js.all (·.1 = .mustNot) = (js.map (·.1)).all (· = .mustNot) := by simp [List.all_map, Function.comp_def]
        have e2 : cs.all (·.1 = .mustNot) = (cs.map (·.1)).all (· = .mustNot) := by simp [List.all_map, Function.comp_def]
        rw [e1, e2, h.2]
      simp [h.1, h2]

theorem rewriteEach_append (f : Heap S L → Nat → Res (Heap S L × Nat)) (h h' : Heap S L) (js js' ks : List (Occur × Nat))
    (h1 : rewriteEach f h js = .ok (h', js')) :
    rewriteEach f h (js ++ ks) = rewriteEach f h' ks >>= fun r => .ok (r.1, js' ++ r.2) := by
  induction js generalizing h js' with
  | nil =>
    simp only [rewriteEach] at h1
    cases h1
    show rewriteEach f h' ks = _
    cases rewriteEach f h' ks <;> rfl
  | cons j js ih =>
    obtain ⟨o, j⟩ := j
    rw [rewriteEach] at h1
    rw [List.cons_append, rewriteEach]
    cases e1 : f h j with
    | ok r =>
      rw [e1, Res.ok_bind] at h1
      rw [Res.ok_bind]
      cases e2 : rewriteEach f r.1 js with
      | ok r' =>
        rw [e2, Res.ok_bind] at h1
        cases h1
        rw [ih r.1 r'.2 (by rw [e2])]
        cases rewriteEach f r'.1 ks <;> simp [Res.ok_bind] <;> rfl
      | raise e => rw [e2] at h1; cases h1
      | ub => rw [e2] at h1; cases h1
    | raise e => rw [e1] at h1; cases h1
    | ub => rw [e1] at h1; cases h1

/-! ### One clause -/

theorem withBoost_withBoost' (x y : S) (o : QObj S L) : (o.withBoost y).withBoost x = o.withBoost x := by
  cases o <;> rfl

theorem withBoost_boost' (x : S) (o : QObj S L) : (o.withBoost x).boost = x := by
  cases o <;> rfl

theorem ewithBoost_withBoost (x y : S) (T : EQuery S L) : EQuery.withBoost x (EQuery.withBoost y T) = EQuery.withBoost x T := by
  cases T <;> rfl

theorem get_of_boostAt {h : Heap S L} {i : Nat} {b : S} (hb : boostAt h i = some b) : ∃ o, h[i]? = some o ∧ o.boost = b := by
  unfold boostAt at hb
  cases hg : h[i]? with
  | none => rw [hg] at hb; simp at hb
  | some o => rw [hg] at hb; exact ⟨o, rfl, by simpa using hb⟩

theorem get_of_lt {h : Heap S L} {i : Nat} (hi : i < h.length) : ∃ o, h[i]? = some o := ⟨_, List.getElem?_eq_getElem hi⟩

variable [DecidableEq S]

theorem rewriteOne_spec {X : XArith S} (hX : Exact X) {expand : L → S → Kind L × S} {b ob : S} {o : Occur} {c : NQ S L}
    {h : Heap S L} {i j : Nat} {F : List Nat} (hg : h[i]? = some (.bool b ob [(o, j)])) (ho : o ≠ .mustNot)
    (hr : Rep X h c j F) (hi : i ∉ F) (hk : Kept X h b ob c j) (hst : NQ.steady X (.bool b [(o, c)]) = true) (hnz : c.boost ≠ X.zero)
    (ih : ∀ c', (c' = c ∨ c.keeps = true ∧ ∃ x, c' = NQ.withBoost x c) → Rep X h c' j F → boostAt h j = some c'.boost →
      ∃ r, rewriteQ X expand n h j = .ok r ∧ Done X expand h c' j F r) :
    ∃ r, (rewriteQ X expand n h j >>= fun r => rewriteOne X i j r.2 r.1) = .ok r ∧
      Done X expand h (.bool b [(o, c)]) i (i :: F) r := by
  have hil := lt_of_get hg
  have hF'i : ∀ F' : List Nat, (∀ x ∈ F', x ∈ F ∨ h.length ≤ x) → i ∉ F' := by
    intro F' hF' hm
    rcases hF' i hm with h1 | h1
    · exact hi h1
    · omega
  have hGi : ∀ F' G : List Nat, (∀ x ∈ F', x ∈ F ∨ h.length ≤ x) → (∀ x ∈ G, x ∈ F' ∨ h.length ≤ x) → i ∉ G := by
    intro F' G hF' hG hm
    rcases hG i hm with h1 | h1
    · exact hF'i F' hF' h1
    · omega
  have hsub : ∀ F' : List Nat, (∀ x ∈ F', x ∈ F ∨ h.length ≤ x) → ∀ x ∈ i :: F', x ∈ i :: F ∨ h.length ≤ x := by
    intro F' hF' x hx
    rcases List.mem_cons.1 hx with rfl | hx
    · simp
    · rcases hF' x hx with h1 | h1
      · simp [h1]
      · exact .inr h1
  have hsubG : ∀ F' G : List Nat, (∀ x ∈ G, x ∈ F' ∨ h.length ≤ x) → ∀ x ∈ G, x ∈ i :: F' ∨ h.length ≤ x := by
    intro F' G hG x hx
    rcases hG x hx with h1 | h1
    · simp [h1]
    · exact .inr h1
  have hji : j ≠ i := fun e => hi (e ▸ hr.mem)
  by_cases h1 : X.isOne b = true
  · -- no boost
    have hb : boostAt h j = some c.boost := hk.2 (by simp [h1])
    obtain ⟨⟨h', q⟩, e, F', G, a1, a2, a3, a4, a5, a6, a7, a8, a9⟩ := ih c (.inl rfl) hr hb
    simp only [] at a1 a2 a3 a4 a5 a6 a7 a8 a9
    have hgi : h'[i]? = some (.bool b ob [(o, j)]) := by rw [a5 i hil hi]; exact hg
    have hqi : q ≠ i := fun e => hGi F' G a3 a7 (e ▸ a6.mem)
    refine ⟨(h', q), ?_, i :: F', G, ?_, ?_, hsub F' a3, a4, ?_, ?_, hsubG F' G a7, ?_, ?_⟩
    · rw [e, Res.ok_bind, rewriteOne]
      simp only [hgi, h1, if_true]
    · exact .one hgi ho a1 (hF'i F' a3) (hk.congr a2)
    · exact boostAt_congr (a5 i hil hi)
    · intro x hx hxF
      simp only [List.mem_cons, not_or] at hxF
      exact a5 x hx hxF.2
    · rw [asked_one X expand ho, boostAsk_eq, (hX.isOne b).1 h1, hX.mul_comm, hX.one_mul]
      have : EQuery.withBoost (EQuery.boost (NQ.asked X expand c)) (NQ.asked X expand c) = NQ.asked X expand c := by
        cases NQ.asked X expand c <;> rfl
      rw [this]
      exact a6
    · simp only [keeps_one ho]
      simp [hqi]
    · intro hrs o' ho' x
      rw [resets_one X ho] at hrs
      have hkc : c.keeps = false ∧ NQ.resets X c = true := by
        by_cases hoc : c.oneClause = true
        · rw [if_pos hoc] at hrs
          refine ⟨?_, hrs⟩
          cases hkc : c.keeps with
          | false => rfl
          | true => rw [keeps_oneClause hkc] at hoc; cases hoc
        · rw [if_neg hoc, h1] at hrs
          exact ⟨by simpa using hrs, resets_many X (by simpa using hoc)⟩
      have hqj : q ≠ j := fun e => by rw [a8.1 e] at hkc; cases hkc.1
      refine .one (by simp only []; rw [get_set_ne (Ne.symm hqi)]; exact hgi) ho (a9 hkc.2 o' ho' x) (hF'i F' a3)
        (hk.congr ?_)
      rw [boostAt_congr (get_set_ne (Ne.symm hqj))]
      exact a2
  · have h1' : X.isOne b = false := by simpa using h1
    by_cases hkeep : c.keeps = true
    · have hoc := keeps_oneClause hkeep
      rcases hk.1 ⟨h1', hoc, hkeep⟩ with hob | ⟨hob, hb⟩
      · -- boosted before
        obtain ⟨oj, hoj⟩ := get_of_lt (hr.lt j hr.mem)
        have hbx : boostAt h j = some (NQ.withBoost oj.boost c).boost := by
          unfold boostAt; rw [hoj]; cases c <;> rfl
        obtain ⟨⟨h', q⟩, e, F', G, a1, a2, a3, a4, a5, a6, a7, a8, a9⟩ :=
          ih (NQ.withBoost oj.boost c) (.inr ⟨hkeep, _, rfl⟩) (hr.nominal _ hoc) hbx
        simp only [] at a1 a2 a3 a4 a5 a6 a7 a8 a9
        rw [withBoost_keeps] at a8
        have hqj := a8.2 hkeep
        subst hqj
        have hgi : h'[i]? = some (.bool b ob [(o, q)]) := by rw [a5 i hil hi]; exact hg
        obtain ⟨o1, ho1⟩ := get_of_lt (a1.lt q a1.mem)
        have hrc : Rep X h' c q F' := by
          have := a1.nominal c.boost (by rw [withBoost_oneClause]; exact hoc)
          rw [withBoost_withBoost, withBoost_boost] at this
          exact this
        have hql := lt_of_get ho1
        have hget : (h'.set q (o1.withBoost (X.mul ob b)))[i]? = some (.bool b ob [(o, q)]) := by
          rw [get_set_ne (Ne.symm hji)]; exact hgi
        refine ⟨(h'.set q (o1.withBoost (X.mul ob b)), q), ?_, i :: F', G, ?_, ?_, hsub F' a3, ?_, ?_, ?_, hsubG F' G a7, ?_, ?_⟩
        · rw [e, Res.ok_bind, rewriteOne]
          simp only [hgi, h1', ho1]
          rw [if_neg (by simp), if_pos ⟨trivial, by rw [hob]; exact hnz⟩]
        · exact .one hget ho (hrc.reboost _ ho1) (hF'i F' a3) ⟨fun _ => .inl hob, fun hn => absurd ⟨h1', hoc, hkeep⟩ hn⟩
        · simp only [boostAt, hget, hg]
        · simpa using a4
        · intro x hx hxF
          simp only [List.mem_cons, not_or] at hxF
          have hxq : x ≠ q := fun e => hxF.2 (e ▸ hr.mem)
          simp only []
          rw [get_set_ne hxq]
          exact a5 x hx hxF.2
        · rw [asked_one X expand ho, boostAsk_eq]
          have hw := withBoost_asked X expand oj.boost hkeep
          have := a6.reboost (X.mul ob b) ho1
          rw [hw.1, ewithBoost_withBoost] at this
          rw [hw.2, ← hob]
          exact this
        · simp only [keeps_one ho]
          simp [hji]
        · intro _ o2 ho2 x
          have hr2 := (hrc.reboost (X.mul ob b) ho1).reboost x ho2
          refine .one (by simp only []; rw [get_set_ne (Ne.symm hji)]; exact hget) ho hr2 (hF'i F' a3)
            ⟨fun _ => .inl hob, fun hn => absurd ⟨h1', hoc, hkeep⟩ hn⟩
      · -- the first time
        obtain ⟨⟨h', q⟩, e, F', G, a1, a2, a3, a4, a5, a6, a7, a8, a9⟩ := ih c (.inl rfl) hr hb
        simp only [] at a1 a2 a3 a4 a5 a6 a7 a8 a9
        have hqj := a8.2 hkeep
        subst hqj
        have hgi : h'[i]? = some (.bool b ob [(o, q)]) := by rw [a5 i hil hi]; exact hg
        obtain ⟨o1, ho1, hb1⟩ := get_of_boostAt (a2.trans hb)
        have hil' := lt_of_get hgi
        have hg2 : (h'.set i (.bool b o1.boost [(o, q)]))[q]? = some o1 := by rw [get_set_ne hji]; exact ho1
        have hiG := hGi F' G a3 a7
        have hiF := hF'i F' a3
        have hrc : Rep X (h'.set i (.bool b o1.boost [(o, q)])) c q F' :=
          a1.frame fun x hx => get_set_ne (fun e => hiF (e ▸ hx))
        have hT := (a6.frame (h' := h'.set i (.bool b o1.boost [(o, q)])) fun x hx => get_set_ne (fun e => hiG (e ▸ hx))).reboost
          (X.mul o1.boost b) hg2
        have hget : ((h'.set i (.bool b o1.boost [(o, q)])).set q (o1.withBoost (X.mul o1.boost b)))[i]? =
            some (.bool b o1.boost [(o, q)]) := by
          rw [get_set_ne (Ne.symm hji), get_set_self hil']
        refine ⟨((h'.set i (.bool b o1.boost [(o, q)])).set q (o1.withBoost (X.mul o1.boost b)), q), ?_, i :: F', G, ?_, ?_,
          hsub F' a3, ?_, ?_, ?_, hsubG F' G a7, ?_, ?_⟩
        · rw [e, Res.ok_bind, rewriteOne]
          simp only [hgi, h1', ho1]
          rw [if_neg (by simp), if_neg (by simp [hob])]
          simp only [hg2]
        · exact .one hget ho (hrc.reboost _ hg2) hiF ⟨fun _ => .inl hb1, fun hn => absurd ⟨h1', hoc, hkeep⟩ hn⟩
        · simp only [boostAt, hget, hg]; rfl
        · simpa using a4
        · intro x hx hxF
          simp only [List.mem_cons, not_or] at hxF
          have hxq : x ≠ q := fun e => hxF.2 (e ▸ hr.mem)
          simp only []
          rw [get_set_ne hxq, get_set_ne hxF.1]
          exact a5 x hx hxF.2
        · rw [asked_one X expand ho, boostAsk_eq, (withBoost_asked X expand X.one hkeep).2, ← hb1]
          exact hT
        · simp only [keeps_one ho]
          simp [hji]
        · intro _ o2 ho2 x
          have hr2 := (hrc.reboost (X.mul o1.boost b) hg2).reboost x ho2
          refine .one (by simp only []; rw [get_set_ne (Ne.symm hji)]; exact hget) ho hr2 hiF
            ⟨fun _ => .inl hb1, fun hn => absurd ⟨h1', hoc, hkeep⟩ hn⟩
    · -- something else
      have hb : boostAt h j = some c.boost := hk.2 (fun hh => hkeep hh.2.2)
      have hres : NQ.resets X c = true := by
        by_cases hoc : c.oneClause = true
        · rw [NQ.steady, h1', resets_one X ho, if_pos hoc] at hst
          simp only [Bool.false_or, Bool.and_eq_true] at hst
          exact hst.1
        · exact resets_many X (by simpa using hoc)
      obtain ⟨⟨h', q⟩, e, F', G, a1, a2, a3, a4, a5, a6, a7, a8, a9⟩ := ih c (.inl rfl) hr hb
      simp only [] at a1 a2 a3 a4 a5 a6 a7 a8 a9
      have hqj : q ≠ j := fun e => hkeep (a8.1 e)
      have hqi : q ≠ i := fun e => hGi F' G a3 a7 (e ▸ a6.mem)
      have hgi : h'[i]? = some (.bool b ob [(o, j)]) := by rw [a5 i hil hi]; exact hg
      obtain ⟨o1, ho1, hb1⟩ := get_of_boostAt a6.boost
      have hil' := lt_of_get hgi
      have hg2 : (h'.set i (.bool b o1.boost [(o, j)]))[q]? = some o1 := by rw [get_set_ne hqi]; exact ho1
      have hiG := hGi F' G a3 a7
      have hiF := hF'i F' a3
      have hT := (a6.frame (h' := h'.set i (.bool b o1.boost [(o, j)])) fun x hx => get_set_ne (fun e => hiG (e ▸ hx))).reboost
        (X.mul o1.boost b) hg2
      have hget : ((h'.set i (.bool b o1.boost [(o, j)])).set q (o1.withBoost (X.mul o1.boost b)))[i]? =
          some (.bool b o1.boost [(o, j)]) := by
        rw [get_set_ne (Ne.symm hqi), get_set_self hil']
      have hql := lt_of_get ho1
      have hsame : ∀ (ob' : QObj S L) x, x ∈ F' → ((h'.set i (.bool b o1.boost [(o, j)])).set q ob')[x]? = (h'.set q ob')[x]? := by
        intro ob' x hx
        by_cases hxq : x = q
        · subst hxq
          rw [get_set_self (by simpa using hql), get_set_self hql]
        · have hxi : x ≠ i := fun e => hiF (e ▸ hx)
          rw [get_set_ne hxq, get_set_ne hxq, get_set_ne hxi]
      refine ⟨((h'.set i (.bool b o1.boost [(o, j)])).set q (o1.withBoost (X.mul o1.boost b)), q), ?_, i :: F', G, ?_, ?_,
        hsub F' a3, ?_, ?_, ?_, hsubG F' G a7, ?_, ?_⟩
      · rw [e, Res.ok_bind, rewriteOne]
        simp only [hgi, h1', ho1]
        rw [if_neg (by simp), if_neg (by simp [hqj])]
        simp only [hg2]
      · refine .one hget ho ((a9 hres o1 ho1 _).frame (hsame _)) hiF ⟨fun hn => absurd hn.2.2 hkeep, fun _ => ?_⟩
        rw [boostAt_congr (get_set_ne (Ne.symm hqj)), boostAt_congr (get_set_ne hji), a2, hb]
      · simp only [boostAt, hget, hg]; rfl
      · simpa using a4
      · intro x hx hxF
        simp only [List.mem_cons, not_or] at hxF
        have hxq : x ≠ q := by
          intro e
          subst e
          rcases a7 x a6.mem with h2 | h2
          · rcases a3 x h2 with h2 | h2
            · exact hxF.2 h2
            · omega
          · omega
        simp only []
        rw [get_set_ne hxq, get_set_ne hxF.1]
        exact a5 x hx hxF.2
      · rw [asked_one X expand ho, boostAsk_eq, ← hb1]
        exact hT
      · simp only [keeps_one ho]
        simp [hqi]
      · intro _ o2 ho2 x
        simp only [] at ho2 ⊢
        rw [get_set_self (by simpa using hql)] at ho2
        cases ho2
        rw [withBoost_withBoost', List.set_set]
        refine .one (by rw [get_set_ne (Ne.symm hqi), get_set_self hil']) ho ((a9 hres o1 ho1 x).frame (hsame _)) hiF
          ⟨fun hn => absurd hn.2.2 hkeep, fun _ => ?_⟩
        rw [boostAt_congr (get_set_ne (Ne.symm hqj)), boostAt_congr (get_set_ne hji), a2, hb]

/-! ### Several clauses -/

omit [DecidableEq S] in
theorem get_set_app_new {h : Heap S L} {i : Nat} {o o' : QObj S L} : (h.set i o ++ [o'])[h.length]? = some o' := by
  have : h.length = (h.set i o).length := by simp
  rw [this]
  exact get_app_new

omit [DecidableEq S] in
theorem TreeL.append {h : Heap S L} {cs cs2 : List (Occur × EQuery S L)} {js js2 G G2} (h1 : TreeL h cs js G) (h2 : TreeL h cs2 js2 G2) :
    TreeL h (cs ++ cs2) (js ++ js2) (G ++ G2) := by
  induction cs generalizing js G with
  | nil => cases h1; exact h2
  | cons c cs ih =>
    cases h1 with
    | cons hr hrs =>
      rw [List.append_assoc]
      exact TreeL.cons hr (ih hrs)

omit [DecidableEq S] in
theorem TreeL.leaf1 {h : Heap S L} {o : Occur} {k : Kind L} {b : S} {a : Nat} (ha : h[a]? = some (.leaf k b)) :
    TreeL h [(o, .leaf k b)] [(o, a)] [a] := by
  have := TreeL.cons (o := o) (Tree.leaf ha) TreeL.nil
  simpa using this

omit [DecidableEq S] in
/-- Setting the boost of a root or of something else leaves the query what it is. -/
theorem Rep.reset {X : XArith S} {h : Heap S L} {N i F q} (hr : Rep X h N i F) (hq : q = i ∨ q ∉ F) :
    ∀ o, h[q]? = some o → ∀ x, Rep X (h.set q (o.withBoost x)) N i F := by
  intro o ho x
  rcases hq with rfl | hq
  · exact hr.reboost x ho
  · exact hr.frame fun y hy => get_set_ne (fun e => hq (e ▸ hy))

theorem rewriteMany_spec {X : XArith S} {expand : L → S → Kind L × S} {b ob : S} {cs : List (Occur × NQ S L)}
    {h h' : Heap S L} {i : Nat} {js js' : List (Occur × Nat)} {F : List Nat} (hg : h[i]? = some (.bool b ob js)) (hs : single cs = none)
    (hr : RepL X h cs js F) (hi : i ∉ F) (hd : DoneL X expand h cs js F (h', js')) :
    ∃ r, rewriteMany X i js h' js' = .ok r ∧ Done X expand h (.bool b cs) i (i :: F) r := by
  obtain ⟨F', G, a1, a3, a4, a5, a6, a7, a8⟩ := hd
  simp only [] at a1 a3 a4 a5 a6 a7 a8
  have hil := lt_of_get hg
  have hiF : i ∉ F' := by
    intro hm
    rcases a3 i hm with h1 | h1
    · exact hi h1
    · omega
  have hiG : i ∉ G := by
    intro hm
    rcases a7 i hm with h1 | h1
    · exact hiF h1
    · omega
  have hgi : h'[i]? = some (.bool b ob js) := by rw [a5 i hil hi]; exact hg
  have hfr : ∀ x, x < h.length → x ∉ i :: F → h'[x]? = h[x]? := by
    intro x hx hxF
    simp only [List.mem_cons, not_or] at hxF
    exact a5 x hx hxF.2
  have hsub : ∀ x ∈ i :: F', x ∈ i :: F ∨ h.length ≤ x := by
    intro x hx
    rcases List.mem_cons.1 hx with rfl | hx
    · simp
    · rcases a3 x hx with h1 | h1
      · simp [h1]
      · exact .inr h1
  have hp := all_occurs a1.occurs
  have hkeeps := keeps_bool (b := b) hs
  have hask := asked_many X expand (b := b) hs
  by_cases hall : cs.all (fun c => c.2.keeps) = true
  · have hjs := a8.2 hall
    subst hjs
    by_cases hpr : (!cs.isEmpty && cs.all (·.1 = .mustNot)) = true
    · have hne : cs ≠ [] ∧ cs.all (·.1 = .mustNot) = true := by
        simp only [Bool.and_eq_true, Bool.not_eq_true', List.isEmpty_eq_false_iff] at hpr
        exact hpr
      have hil' := lt_of_get hgi
      refine ⟨(h'.set i (.bool b ob (js' ++ [(.must, h'.length)])) ++ [.leaf .all X.one], i), ?_,
        i :: h'.length :: F', i :: (G ++ [h'.length]), ?_, ?_, ?_, ?_, ?_, ?_, ?_, ?_, ?_⟩
      · rw [rewriteMany, copyIf, if_pos rfl, Res.ok_bind]
        simp only []
        rw [hp, if_pos hpr, addAll]
        simp only [hgi]
        rfl
      all_goals try simp only []
      · refine .prohibited (b' := b) (ob := ob) (js := js') (a := h'.length) ?_ hne.1 hne.2 (a1.frame ?_) hiF ?_ ?_ ?_
        · rw [get_app_lt (by simpa using hil'), get_set_self hil']
        · intro x hx
          have hxi : x ≠ i := fun e => hiF (e ▸ hx)
          rw [get_app_lt (by simpa using a1.lt x hx), get_set_ne hxi]
        · omega
        · intro hm; have := a1.lt _ hm; omega
        · exact get_set_app_new
      · simp only [boostAt]
        rw [get_app_lt (by simpa using hil'), get_set_self hil', hg]
        rfl
      · intro x hx
        rcases List.mem_cons.1 hx with rfl | hx
        · simp
        rcases List.mem_cons.1 hx with rfl | hx
        · right; omega
        · rcases a3 x hx with h1 | h1
          · simp [h1]
          · exact .inr h1
      · simp; omega
      · intro x hx hxF
        rw [get_app_lt (by simp; omega), get_set_ne (fun e => hxF (by simp [e]))]
        exact hfr x hx hxF
      · rw [hask, if_pos hpr]
        refine .bool (ob := ob) (js := js' ++ [(.must, h'.length)]) ?_ ((a6.frame ?_).append (TreeL.leaf1 ?_)) ?_
        · rw [get_app_lt (by simpa using hil'), get_set_self hil']
        · intro x hx
          have hxi : x ≠ i := fun e => hiG (e ▸ hx)
          rw [get_app_lt (by simpa using a6.lt x hx), get_set_ne hxi]
        · exact get_set_app_new
        · simp only [List.mem_append, List.mem_singleton, not_or]
          exact ⟨hiG, by omega⟩
      · intro x hx
        rcases List.mem_cons.1 hx with rfl | hx
        · simp
        rcases List.mem_append.1 hx with hx | hx
        · rcases a7 x hx with h1 | h1
          · simp [h1]
          · exact .inr h1
        · rw [List.mem_singleton] at hx; right; omega
      · rw [hkeeps]; simp [hall]
      · intro _
        refine Rep.reset ?_ (.inl rfl)
        refine .prohibited (b' := b) (ob := ob) (js := js') (a := h'.length) ?_ hne.1 hne.2 (a1.frame ?_) hiF ?_ ?_ ?_
        · rw [get_app_lt (by simpa using hil'), get_set_self hil']
        · intro x hx
          have hxi : x ≠ i := fun e => hiF (e ▸ hx)
          rw [get_app_lt (by simpa using a1.lt x hx), get_set_ne hxi]
        · omega
        · intro hm; have := a1.lt _ hm; omega
        · exact get_set_app_new
    · refine ⟨(h', i), ?_, i :: F', i :: G, ?_, ?_, hsub, a4, hfr, ?_, ?_, ?_, ?_⟩
      · rw [rewriteMany, copyIf, if_pos rfl, Res.ok_bind]
        simp only []
        rw [hp, if_neg hpr]
      all_goals try simp only []
      · exact .many hgi hs a1 hiF
      · simp only [boostAt, hgi, hg]
      · rw [hask, if_neg hpr, List.append_nil]
        exact .bool hgi a6 hiG
      · intro x hx
        rcases List.mem_cons.1 hx with rfl | hx
        · simp
        · rcases a7 x hx with h1 | h1
          · simp [h1]
          · exact .inr h1
      · rw [hkeeps]; simp [hall]
      · intro _
        exact Rep.reset (.many hgi hs a1 hiF) (.inl rfl)
  · have hjs : js' ≠ js := fun e => hall (a8.1 e)
    have hrep : Rep X h' (.bool b cs) i (i :: F') := .many hgi hs a1 hiF
    have hGlt := a6.lt
    by_cases hpr : (!cs.isEmpty && cs.all (·.1 = .mustNot)) = true
    · have hget : (h' ++ [.bool b ob js'])[h'.length]? = some (.bool b ob js') := get_app_new
      have hlen2 : ((h' ++ [QObj.bool b ob js']).set h'.length (QObj.bool b ob (js' ++ [(Occur.must, (h' ++ [QObj.bool b ob js']).length)]))).length = h'.length + 1 := by
        simp
      have hold : ∀ x, x < h'.length → ((h' ++ [QObj.bool b ob js']).set h'.length
          (QObj.bool b ob (js' ++ [(Occur.must, (h' ++ [QObj.bool b ob js']).length)])) ++ [.leaf .all X.one])[x]? = h'[x]? := by
        intro x hx
        rw [get_app_lt (by rw [hlen2]; omega), get_set_ne (by omega), get_app_lt hx]
      have hrep' := hrep.frame (h' := (h' ++ [QObj.bool b ob js']).set h'.length
          (QObj.bool b ob (js' ++ [(Occur.must, (h' ++ [QObj.bool b ob js']).length)])) ++ [.leaf .all X.one]) fun x hx => hold x (hrep.lt x hx)
      refine ⟨((h' ++ [QObj.bool b ob js']).set h'.length
          (QObj.bool b ob (js' ++ [(Occur.must, (h' ++ [QObj.bool b ob js']).length)])) ++ [.leaf .all X.one], h'.length), ?_, i :: F',
          h'.length :: (G ++ [h'.length + 1]), hrep', ?_, hsub, ?_, ?_, ?_, ?_, ?_, ?_⟩
      · rw [rewriteMany, copyIf, if_neg hjs]
        simp only [hgi]
        rw [Res.ok_bind]
        simp only []
        rw [hp, if_pos hpr, addAll]
        simp only [hget]
        rfl
      all_goals try simp only []
      · simp only [boostAt]
        rw [hold i (lt_of_get hgi), hgi, hg]
      · rw [List.length_append, hlen2]; omega
      · intro x hx hxF
        rw [hold x (by omega)]
        exact hfr x hx hxF
      · rw [hask, if_pos hpr]
        refine .bool (ob := ob) (js := js' ++ [(Occur.must, (h' ++ [QObj.bool b ob js']).length)]) ?_ ((a6.frame ?_).append ?_) ?_
        · rw [get_app_lt (by rw [hlen2]; omega), get_set_self (by simp)]
        · intro x hx; exact hold x (a6.lt x hx)
        · have : (h' ++ [QObj.bool b ob js']).length = h'.length + 1 := by simp
          rw [this]
          refine TreeL.leaf1 ?_
          have h2 : h'.length + 1 = ((h' ++ [QObj.bool b ob js']).set h'.length (QObj.bool b ob (js' ++ [(Occur.must, h'.length + 1)]))).length := by simp
          rw [h2]
          simp
        · simp only [List.mem_append, List.mem_singleton, not_or]
          exact ⟨fun hm => by have := a6.lt _ hm; omega, by omega⟩
      · intro x hx
        rcases List.mem_cons.1 hx with rfl | hx
        · right; omega
        rcases List.mem_append.1 hx with hx | hx
        · rcases a7 x hx with h1 | h1
          · simp [h1]
          · exact .inr h1
        · rw [List.mem_singleton] at hx; right; omega
      · have hilt := lt_of_get hgi
        rw [hkeeps]; simp only [hall]
        simp; omega
      · intro _
        refine Rep.reset hrep' (.inr fun hm => ?_)
        have := hrep.lt _ hm; omega
    · have hold : ∀ x, x < h'.length → (h' ++ [QObj.bool b ob js'])[x]? = h'[x]? := fun x hx => get_app_lt hx
      have hrep' := hrep.frame (h' := h' ++ [QObj.bool b ob js']) fun x hx => hold x (hrep.lt x hx)
      refine ⟨(h' ++ [QObj.bool b ob js'], h'.length), ?_, i :: F', h'.length :: G, hrep', ?_, hsub, ?_, ?_, ?_, ?_, ?_, ?_⟩
      · rw [rewriteMany, copyIf, if_neg hjs]
        simp only [hgi]
        rw [Res.ok_bind]
        simp only []
        rw [hp, if_neg hpr]
      all_goals try simp only []
      · simp only [boostAt]
        rw [hold i (lt_of_get hgi), hgi, hg]
      · simp; omega
      · intro x hx hxF
        rw [hold x (by omega)]
        exact hfr x hx hxF
      · rw [hask, if_neg hpr, List.append_nil]
        exact .bool (ob := ob) get_app_new (a6.frame fun x hx => hold x (a6.lt x hx)) (fun hm => by have := a6.lt _ hm; omega)
      · intro x hx
        rcases List.mem_cons.1 hx with rfl | hx
        · right; omega
        · rcases a7 x hx with h1 | h1
          · simp [h1]
          · exact .inr h1
      · have hilt := lt_of_get hgi
        rw [hkeeps]; simp only [hall]
        simp; omega
      · intro _
        refine Rep.reset hrep' (.inr fun hm => ?_)
        have := hrep.lt _ hm; omega

end Ferret.QHeap
