import Verif.Lemmas.RefRewrite

/-! Weights, and programs. -/

namespace Ferret.Rc
open Ferret
open Ferret.Spec (Occur)

local notation "Ref" => Nat

/-- What is held from above stays. -/
theorem St.still {h h' : Heap} {R R' : List Ref} {r : Ref} {o : Obj} (hs : St h R) (e : h[r]? = some o) (hl : 0 < o.cnt) (ha : Above o.rank h h') (hs' : St h' R') (hR : ∀ x ∈ R, x ∈ R') :
    ∃ o', h'[r]? = some o' ∧ 0 < o'.cnt := by
  have hc := hs.count r
  rw [cntOf_some e] at hc
  apply hs'.live
  by_cases h0 : 0 < R.count r
  · exact .inl (hR r (List.count_pos_iff.1 h0))
  · have : 0 < (allRefs h).count r := by omega
    obtain ⟨po, hp, hr⟩ := List.mem_flatMap.1 (List.count_pos_iff.1 this)
    obtain ⟨p, ep⟩ := List.mem_iff_getElem?.1 hp
    obtain ⟨o1, e1, r1, _⟩ := hs.owns p po ep r hr
    rw [e] at e1
    cases e1
    exact .inr (mem_allRefs (ha p po ep r1) hr)

/-! ### isea_rewrite -/

theorem iseaLoop_ok {R : List Ref} {ρ : Nat} : ∀ (n : Nat) (h : Heap) (query rewritten : Ref) (o : Obj) (destroyed : Bool), St h (rewritten :: R) → h[rewritten]? = some o → o.kind.isQuery = true → o.rank ≤ ρ →
    Holds (iseaLoop n query rewritten destroyed) h
      (fun r' h' => St h' (r' :: R) ∧ Keep h h' ∧ Above ρ h h' ∧ ∃ o', h'[r']? = some o' ∧ o'.kind.isQuery = true ∧ o'.rank ≤ ρ) (Exc h R) := by
  intro n
  induction n with
  | zero => intro h query rewritten o destroyed _ _ _ _; trivial
  | succ n ih =>
    intro h query rewritten o destroyed hs e hq hr
    unfold iseaLoop
    by_cases hc : (destroyed || query ≠ rewritten) = true
    · rw [if_pos hc]
      obtain ⟨o0, e0, l0⟩ := hs.live (r := rewritten) (.inl (by simp))
      rw [e] at e0
      cases e0
      refine Holds.bind (Holds.mono (rewrite_ok n h _ rewritten o hs e l0 hq) (fun _ _ h => h) (fun h' he => Exc.trans (Keep.refl h) [rewritten] (fun _ => rfl) he)) ?_
      rintro again h1 ⟨hs1, hk1, ha1, o1, e1, q1, k1⟩
      obtain ⟨o2, e2, l2⟩ := hs1.live (r := rewritten) (.inl (by simp))
      have hr2 : o2.rank = o.rank := by
        obtain ⟨x, ex, _, rx⟩ := hk1 rewritten o e
        rw [e2] at ex
        cases ex
        exact rx
      refine Holds.get e2 l2 ?_
      obtain ⟨h3, he3, hs3, hk3, ha3⟩ := release_ok (work := [rewritten]) (R := again :: R) (ρ := ρ) (hs1.congr (by intro y; simp only [List.singleton_append, List.count_cons]; omega)) (by
        intro x hx
        rw [List.mem_singleton] at hx
        unfold rankOf
        rw [hx, e2]
        show o2.rank ≤ ρ
        omega)
      refine Holds.step he3 ?_
      obtain ⟨o3, e3, k3, r3⟩ := hk3 again o1 e1
      refine Holds.mono (ih h3 rewritten again o3 _ hs3 e3 (by rw [k3]; exact q1) (by omega)) ?_ ?_
      · rintro r' h' ⟨hs', hk', ha', hx⟩
        exact ⟨hs', (hk1.trans hk3).trans hk', ((ha1.mono hr).trans ha3).trans ha', hx⟩
      · intro h' he
        exact Exc.trans (hk1.trans hk3) [] (fun _ => rfl) he
    · rw [if_neg hc]
      have : query = rewritten := by
        simp at hc
        exact hc.2
      subst this
      exact Holds.pure ⟨hs, Keep.refl h, Above.refl _ h, o, e, hq, hr⟩

theorem iseaRewrite_ok (n : Nat) : RwOk (iseaRewrite n) := by
  intro h R r o hs e hl hq
  unfold iseaRewrite
  refine Holds.bind (rewrite_ok n h R r o hs e hl hq) ?_
  rintro r1 h1 ⟨hs1, hk1, ha1, o1, e1, q1, k1⟩
  refine Holds.mono (iseaLoop_ok n h1 r r1 o1 false hs1 e1 q1 k1) ?_ ?_
  · rintro r' h' ⟨hs', hk', ha', hx⟩
    exact ⟨hs', hk1.trans hk', ha1.trans ha', hx⟩
  · intro h' he
    exact Exc.trans hk1 [] (fun _ => rfl) he

/-! ### Weights -/

def QwOk (qw : Ref → M Ref) : Prop := ∀ (h : Heap) (R : List Ref) (r : Ref) (o : Obj), St h R → h[r]? = some o → 0 < o.cnt → o.kind.isQuery = true →
  Holds (qw r) h (fun w h' => St h' (w :: R) ∧ Keep h h' ∧ Above o.rank h h') (Exc h R)

theorem getSimilarity_ok {h : Heap} {R : List Ref} {r : Ref} {o : Obj} (hs : St h R) (e : h[r]? = some o) (hl : 0 < o.cnt) : getSimilarity r h = .ok () h := by
  show (M.bind (get r) _) h = _
  unfold M.bind
  rw [get_ok e hl]
  have hp := (hs.shape r o e).plain
  rcases o with ⟨_ | _ | _ | _ | _ | _ | ⟨off, m⟩ | oc | _ | _ | _, cnt, kids, aux, rank⟩
  case bool =>
    have : off = false := (hp off m rfl).1
    subst this
    rfl
  all_goals rfl

theorem topRank_le (h : Heap) (rs : List Ref) {r : Ref} (hr : r ∈ rs) {o : Obj} (e : h[r]? = some o) : o.rank ≤ topRank h rs := by
  unfold topRank
  induction rs with
  | nil => cases hr
  | cons a rs ih =>
    rw [List.foldr_cons]
    rcases List.mem_cons.1 hr with rfl | hr
    · rw [e]
      exact Nat.le_max_left _ _
    · exact Nat.le_trans (ih hr) (Nat.le_max_right _ _)

theorem newWeight_ok {h : Heap} {R kids : List Ref} (hs : St h (kids ++ R)) : ∃ h', newWeight kids h = .ok h.length h' ∧ St h' (h.length :: R) ∧ Keep h h' ∧ ∀ ρ, Above ρ h h' := by
  refine ⟨_, rfl, ?_, keep_append h _, fun ρ => above_append h _ ρ⟩
  refine hs.alloc _ (fun y => by simp [Obj.refs, List.count_append]; omega) rfl ?_ ⟨fun h => by simp at h, fun _ h => by simp [Kind.single] at h, fun h => by simp at h, fun _ _ h => by simp at h⟩
  intro x hx
  simp only [Obj.refs, Option.toList_none, List.append_nil] at hx
  obtain ⟨ox, ex, _⟩ := hs.live (r := x) (.inl (List.mem_append_left _ hx))
  exact ⟨ox, ex, Nat.lt_succ_of_le (topRank_le h kids hx ex), fun _ => rfl⟩

theorem bwLoop_ok {qw : Ref → M Ref} (hqw : QwOk qw) {R : List Ref} {query : Ref} {o : Obj} (hl : 0 < o.cnt) {off : Bool} {m : Nat} (hk : o.kind = .bool off m) :
    ∀ (k i : Nat) (h : Heap) (ws : List Ref), St h (ws ++ R) → h[query]? = some o → i + k ≤ o.kids.length →
    Holds (bwLoop qw query k i ws) h (fun ws' h' => St h' (ws' ++ R) ∧ Keep h h' ∧ Above o.rank h h' ∧ h'[query]? = some o) (Exc h R) := by
  intro k
  induction k with
  | zero => intro i h ws hs e _; exact Holds.pure ⟨hs, Keep.refl h, Above.refl _ h, e⟩
  | succ k ih =>
    intro i h ws hs e hi
    unfold bwLoop
    refine Holds.get e hl ?_
    have hci : o.kids[i]? = some o.kids[i] := List.getElem?_eq_getElem (by omega)
    rw [hci]
    refine Holds.step (a := o.kids[i]) (h' := h) rfl ?_
    obtain ⟨co, oc, q, ec, lc, _, _, rc, hcl, qo, eq, lq, qq, rq⟩ := asClause_ok hs e hk (List.getElem_mem (by omega : i < o.kids.length))
    refine Holds.get ec lc ?_
    refine Holds.step (hcl h) ?_
    refine Holds.bind (Holds.mono (hqw h _ q qo hs eq lq qq) (fun _ _ h => h) (fun h' he => Exc.trans (Keep.refl h) ws (fun _ => rfl) he)) ?_
    rintro w h1 ⟨hs1, hk1, ha1⟩
    refine Holds.mono (ih (i + 1) h1 (ws ++ [w]) (hs1.congr (by intro y; simp only [List.count_append, List.count_cons, List.count_nil]; omega)) (ha1 query o e (by omega)) (by omega)) ?_ ?_
    · rintro ws' h' ⟨hs', hk', ha', e'⟩
      exact ⟨hs', hk1.trans hk', (ha1.mono (by omega)).trans ha', e'⟩
    · intro h' he
      exact Exc.trans hk1 [] (fun _ => rfl) he

theorem createWeight_ok {qw : Ref → M Ref} (hqw : QwOk qw) : QwOk (createWeight qw) := by
  intro h R r o hs e hl hq
  unfold createWeight
  refine Holds.get e hl ?_
  have simple : Holds (do ref r; newWeight [r]) h (fun w h' => St h' (w :: R) ∧ Keep h h' ∧ Above o.rank h h') (Exc h R) := by
    obtain ⟨hr, hs1⟩ := ref_ok hs e hl
    refine Holds.step hr ?_
    obtain ⟨h2, he2, hs2, hk2, ha2⟩ := newWeight_ok (kids := [r]) hs1
    exact Holds.of_ok he2 ⟨hs2, (keep_set (o' := { o with cnt := o.cnt + 1 }) e rfl rfl).trans hk2, (above_set e (Nat.le_refl _)).trans (ha2 _)⟩
  cases hk : o.kind with
  | leaf => exact simple
  | constScore => exact simple
  | span => exact simple
  | pattern => exact ⟨[], hs, Keep.refl h⟩
  | range => exact ⟨[], hs, Keep.refl h⟩
  | bool off m =>
    obtain ⟨hr, hs1⟩ := ref_ok hs e hl
    have hk1 : Keep h (h.set r { o with cnt := o.cnt + 1 }) := keep_set e rfl rfl
    have ha1 : Above o.rank h (h.set r { o with cnt := o.cnt + 1 }) := above_set e (Nat.le_refl _)
    refine Holds.step hr ?_
    have e1 : (h.set r { o with cnt := o.cnt + 1 })[r]? = some { o with cnt := o.cnt + 1 } := by rw [set_get _ e, if_pos rfl]
    refine Holds.bind (Holds.mono (bwLoop_ok hqw (R := r :: R) (o := { o with cnt := o.cnt + 1 }) (Nat.succ_pos _) hk o.kids.length 0 _ [] hs1 e1 (by simp)) (fun _ _ h => h)
      (fun h' he => Exc.trans hk1 [r] (fun _ => rfl) he)) ?_
    rintro ws h2 ⟨hs2, hk2, ha2, e2⟩
    refine Holds.step (getSimilarity_ok hs2 e2 (Nat.succ_pos _)) ?_
    obtain ⟨h3, he3, hs3, hk3, ha3⟩ := newWeight_ok (kids := ws ++ [r]) (R := R) (by rw [List.append_assoc]; exact hs2)
    exact Holds.of_ok he3 ⟨hs3, (hk1.trans hk2).trans hk3, (ha1.trans ha2).trans (ha3 _)⟩
  | filtered =>
    have h1 := (hs.shape r o e).single hl (by rw [hk]; rfl)
    obtain ⟨q, hkq⟩ := List.length_eq_one_iff.1 h1
    rw [hkq]
    obtain ⟨qo, eq, lq, rq, kq⟩ := hs.kid e (k := q) (by rw [hkq]; simp)
    rw [hk] at kq
    refine Holds.bind (hqw h R q qo hs eq lq kq) ?_
    rintro w h1 ⟨hs1, hk1, ha1⟩
    have e1 := ha1 r o e rq
    obtain ⟨hr, hs2⟩ := ref_ok hs1 e1 hl
    refine Holds.step hr ?_
    have hk2 : Keep h1 (h1.set r { o with cnt := o.cnt + 1 }) := keep_set e1 rfl rfl
    obtain ⟨h3, he3, hs3, hk3, ha3⟩ := newWeight_ok (kids := [w, r]) (R := R) (hs2.congr (by intro y; simp only [List.cons_append, List.nil_append, List.count_cons]; omega))
    exact Holds.of_ok he3 ⟨hs3, (hk1.trans hk2).trans hk3, ((ha1.mono (by omega)).trans (above_set e1 (Nat.le_refl _))).trans (ha3 _)⟩
  | clause oc => rw [hk] at hq; simp [Kind.isQuery] at hq
  | filter => rw [hk] at hq; simp [Kind.isQuery] at hq
  | similarity => rw [hk] at hq; simp [Kind.isQuery] at hq
  | weight => rw [hk] at hq; simp [Kind.isQuery] at hq

theorem qWeight_ok : ∀ n, QwOk (qWeight n) := by
  intro n
  induction n with
  | zero => intro h R r o _ _ _ _; trivial
  | succ n ih =>
    intro h R r o hs e hl hq
    unfold qWeight
    refine Holds.bind (iseaRewrite_ok n h R r o hs e hl hq) ?_
    rintro q h1 ⟨hs1, hk1, ha1, o1, e1, q1, k1⟩
    obtain ⟨o1', e1', l1⟩ := hs1.live (r := q) (.inl (by simp))
    rw [e1] at e1'
    cases e1'
    refine Holds.bind (Holds.mono (createWeight_ok ih h1 _ q o1 hs1 e1 l1 q1) (fun _ _ h => h) (fun h' he => Exc.trans hk1 [q] (fun _ => rfl) he)) ?_
    rintro w h2 ⟨hs2, hk2, ha2⟩
    obtain ⟨o2, e2, l2⟩ := hs2.live (r := q) (.inl (by simp))
    refine Holds.step (getSimilarity_ok hs2 e2 l2) ?_
    have hr2 : o2.rank = o1.rank := by
      obtain ⟨x, ex, _, rx⟩ := hk2 q o1 e1
      rw [e2] at ex
      cases ex
      exact rx
    obtain ⟨h3, he3, hs3, hk3, ha3⟩ := release_ok (work := [q]) (R := w :: R) (ρ := o.rank) (hs2.congr (by intro y; simp only [List.singleton_append, List.count_cons]; omega)) (by
      intro x hx
      rw [List.mem_singleton] at hx
      unfold rankOf
      rw [hx, e2]
      show o2.rank ≤ o.rank
      omega)
    refine Holds.step he3 ?_
    have ha : Above o.rank h h3 := (ha1.trans (ha2.mono k1)).trans ha3
    obtain ⟨o3, e3, l3⟩ := hs.still e hl ha hs3 (fun x hx => List.mem_cons_of_mem _ hx)
    refine Holds.get e3 l3 ?_
    exact Holds.pure ⟨hs3, (hk1.trans hk2).trans hk3, ha⟩

/-! ### Programs -/

/-- A program holds what it says, and `ex` is what was left by exceptions. -/
structure Fine (p : Prog) : Prop where
  st : ∃ ex, St p.heap (ex ++ p.held) ∧ (p.failed = false → ex = [])

theorem count_erase_add {l : List Ref} {a : Ref} (ha : a ∈ l) (y : Ref) : (l.erase a).count y + (if a = y then 1 else 0) = l.count y := by
  rw [List.count_erase]
  by_cases hy : a = y
  · subst hy
    have := List.count_pos_iff.2 ha
    simp
    omega
  · have : (a == y) = false := by simpa using hy
    simp [hy, this]

theorem erase_St {h : Heap} {ex held : List Ref} {a : Ref} (hs : St h (ex ++ held)) (ha : a ∈ held) : St h (a :: (ex ++ held.erase a)) := by
  refine hs.congr ?_
  intro y
  have := count_erase_add ha y
  simp only [List.count_append, List.count_cons, beq_iff_eq]
  omega

theorem live_held {h : Heap} {ex held : List Ref} {a : Ref} (hs : St h (ex ++ held)) (ha : a ∈ held) : ∃ o, h[a]? = some o ∧ 0 < o.cnt := hs.live (.inl (List.mem_append_right _ ha))

theorem isQuery_of {h : Heap} {r : Ref} {o : Obj} (e : h[r]? = some o) (hq : isQuery h r = true) : o.kind.isQuery = true := by
  unfold isQuery kindOf at hq
  rw [e] at hq
  exact hq

theorem isBool_of {h : Heap} {r : Ref} {o : Obj} (e : h[r]? = some o) (hq : isBool h r = true) : ∃ off m, o.kind = .bool off m := by
  unfold isBool kindOf at hq
  rw [e] at hq
  simp only [Option.map_some] at hq
  split at hq
  · rename_i off m hk
    exact ⟨off, m, by simpa using hk⟩
  · cases hq

theorem rankOf_some {h : Heap} {r : Ref} {o : Obj} (e : h[r]? = some o) : rankOf h r = o.rank := by unfold rankOf; rw [e]

/-- A new object that owns nothing. -/
theorem new_ok {h : Heap} {R held : List Ref} (hs : St h R) (o : Obj) (h1 : o.cnt = 1) (hr : o.refs = []) (hsh : Shape o) (Q : List Ref → Heap → Prop) (E : Heap → Prop)
    (hQ : Q (h.length :: held) (h ++ [o]) ) : Holds (do return (← alloc o) :: held) h (fun l h' => Q l h' ∧ St h' (h.length :: R)) E :=
  Holds.step (alloc_ok h o) (Holds.pure ⟨hQ, hs.alloc o (fun y => by simp [hr]) h1 (fun x hx => by rw [hr] at hx; cases hx) hsh⟩)

theorem addQueryNr_ok {h : Heap} {R : List Ref} {b q : Ref} {bo qo : Obj} (hs : St h (q :: R)) (eb : h[b]? = some bo) (lb : 0 < bo.cnt) {off : Bool} {m : Nat} (hk : bo.kind = .bool off m)
    (eq : h[q]? = some qo) (hq : qo.kind.isQuery = true) (hr : qo.rank + 1 < bo.rank) (occur : Occur) :
    Holds (addQueryNr b q occur) h (fun _ h' => St h' R) (fun h' => h' = h) := by
  obtain ⟨qo', eq', lq⟩ := hs.live (r := q) (.inl (by simp))
  rw [eq] at eq'
  cases eq'
  unfold addQueryNr
  refine Holds.get eb lb ?_
  split
  case h_2 hne => exact absurd hk (hne off m)
  rename_i off' m' hk'
  rw [hk] at hk'
  cases hk'
  show Holds (if m ≤ bo.kids.length then _ else _) _ _ _
  by_cases hm : m ≤ bo.kids.length
  · rw [if_pos hm]
    rfl
  · rw [if_neg hm]
    refine Holds.get eq lq ?_
    refine Holds.step (alloc_ok _ _) ?_
    let co : Obj := ⟨.clause occur, 1, [q], none, qo.rank + 1⟩
    have hs2 : St (h ++ [co]) (h.length :: R) := by
      refine hs.alloc co (fun y => by simp [co, Obj.refs, List.count_cons]) rfl ?_ ⟨fun h => by simp [co] at h, fun _ _ => rfl, fun h => by simp [co] at h, fun _ _ h => by simp [co] at h⟩
      intro x hx
      simp only [co, Obj.refs, Option.toList_none, List.append_nil, List.mem_singleton] at hx
      subst hx
      exact ⟨qo, eq, Nat.lt_succ_self _, fun _ => hq⟩
    have e2 : (h ++ [co])[b]? = some bo := by rw [append_get, if_neg (by have := lt_of_some eb; omega)]; exact eb
    have ec : (h ++ [co])[h.length]? = some co := by rw [append_get, if_pos rfl]
    refine Holds.of_ok (put_ok _ _ _) ?_
    show St ((h ++ [co]).set b { bo with kids := bo.kids ++ [h.length] }) R
    refine hs2.set e2 _ rfl rfl ?_ ?_ ?_
    · intro y
      simp only [Obj.refs, List.count_append, List.count_cons, List.count_nil]
      omega
    · intro x hx
      simp only [Obj.refs, List.mem_append, List.mem_singleton] at hx
      have hnew : ∀ ox, (h ++ [co])[h.length]? = some ox → kidOk bo.kind ox.kind = true := by
        intro ox ex
        rw [ec] at ex
        cases ex
        rw [hk]
        rfl
      rcases hx with (hx | rfl) | hx
      · obtain ⟨ox, ex, rx, kx⟩ := hs2.owns b bo e2 x (List.mem_append_left _ hx)
        exact ⟨ox, ex, rx, fun _ => kx hx⟩
      · exact ⟨co, ec, hr, fun _ => hnew co ec⟩
      · obtain ⟨ox, ex, rx, kx⟩ := hs2.owns b bo e2 x (List.mem_append_right _ hx)
        refine ⟨ox, ex, rx, fun hm => ?_⟩
        have hm : x ∈ bo.kids ++ [h.length] := hm
        rcases List.mem_append.1 hm with hm | hm
        · exact kx hm
        · rw [List.mem_singleton] at hm
          rw [hm] at ex
          exact hnew ox ex
    · have := hs2.shape b bo e2
      refine ⟨fun h => by have : bo.cnt = 0 := h; omega, fun _ hsi => ?_, this.range, this.plain⟩
      have hsi : bo.kind.single = true := hsi
      rw [hk] at hsi
      simp [Kind.single] at hsi

theorem spanAdd_ok {h : Heap} {R : List Ref} {s q : Ref} {so qo : Obj} (hs : St h R) (es : h[s]? = some so) (ls : 0 < so.cnt) (hk : so.kind = .span)
    (eq : h[q]? = some qo) (lq : 0 < qo.cnt) (hq : qo.kind.isQuery = true) (hr : qo.rank < so.rank) :
    Holds (spanAdd s q) h (fun _ h' => St h' R) (fun _ => False) := by
  unfold spanAdd
  obtain ⟨hr1, hs1⟩ := ref_ok hs eq lq
  refine Holds.step hr1 ?_
  have es1 : (h.set q { qo with cnt := qo.cnt + 1 })[s]? = some so := by
    rw [set_get _ eq, if_neg]
    · exact es
    · rintro rfl
      rw [es] at eq
      cases eq
      omega
  have eq1 : (h.set q { qo with cnt := qo.cnt + 1 })[q]? = some { qo with cnt := qo.cnt + 1 } := by rw [set_get _ eq, if_pos rfl]
  refine Holds.get es1 ls ?_
  refine Holds.of_ok (put_ok _ _ _) ?_
  refine hs1.set es1 _ rfl rfl ?_ ?_ ?_
  · intro y
    simp only [Obj.refs, List.count_append, List.count_cons, List.count_nil]
    omega
  · intro x hx
    simp only [Obj.refs, List.mem_append, List.mem_singleton] at hx
    rcases hx with (hx | rfl) | hx
    · obtain ⟨ox, ex, rx, kx⟩ := hs1.owns s so es1 x (List.mem_append_left _ hx)
      exact ⟨ox, ex, rx, fun _ => kx hx⟩
    · exact ⟨_, eq1, hr, fun _ => by show kidOk so.kind _ = true; rw [hk]; exact hq⟩
    · obtain ⟨ox, ex, rx, kx⟩ := hs1.owns s so es1 x (List.mem_append_right _ hx)
      refine ⟨ox, ex, rx, fun hm => ?_⟩
      have hm : x ∈ so.kids ++ [q] := hm
      rcases List.mem_append.1 hm with hm | hm
      · exact kx hm
      · rw [List.mem_singleton] at hm
        rw [hm, eq1] at ex
        cases ex
        show kidOk so.kind _ = true
        rw [hk]
        exact hq
  · have := hs1.shape s so es1
    refine ⟨fun h => by have : so.cnt = 0 := h; omega, fun _ hsi => ?_, this.range, this.plain⟩
    have hsi : so.kind.single = true := hsi
    rw [hk] at hsi
    simp [Kind.single] at hsi

/-- No query without coordination is made. -/
def Op.plain : Op → Bool
  | .bool off _ _ => !off
  | _ => true

theorem act_ok (n : Nat) (op : Op) (p : Prog) (ex : List Ref) (hs : St p.heap (ex ++ p.held)) (hop : op.plain = true) (hmay : p.may op = true) :
    Holds (Prog.act n p.held op) p.heap (fun held h' => St h' (ex ++ held)) (fun h' => ∃ ex', St h' (ex' ++ p.held)) := by
  obtain ⟨h, held, failed⟩ := p
  dsimp only at hs hmay ⊢
  have push : ∀ {h' : Heap} {x : Ref} {l : List Ref}, St h' (x :: (ex ++ l)) → St h' (ex ++ (x :: l)) := by
    intro h' x l hs
    exact hs.congr (by intro y; simp only [List.count_append, List.count_cons]; omega)
  have fresh : ∀ (o : Obj), o.cnt = 1 → o.refs = [] → Shape o → Holds (do return (← alloc o) :: held) h (fun held h' => St h' (ex ++ held)) (fun h' => ∃ ex', St h' (ex' ++ held)) := by
    intro o h1 hr hsh
    refine Holds.step (alloc_ok h o) (Holds.pure (push ?_))
    exact hs.alloc o (fun y => by simp [hr]) h1 (fun x hx => by rw [hr] at hx; cases hx) hsh
  cases op with
  | leaf => exact fresh _ rfl rfl ⟨fun _ => rfl, fun _ h => by simp [Kind.single] at h, fun h => by simp at h, fun _ _ h => by simp at h⟩
  | pattern => exact fresh _ rfl rfl ⟨fun _ => rfl, fun _ h => by simp [Kind.single] at h, fun h => by simp at h, fun _ _ h => by simp at h⟩
  | range => exact fresh _ rfl rfl ⟨fun _ => rfl, fun _ h => by simp [Kind.single] at h, fun _ => Nat.le_refl _, fun _ _ h => by simp at h⟩
  | filter => exact fresh _ rfl rfl ⟨fun _ => rfl, fun _ h => by simp [Kind.single] at h, fun h => by simp at h, fun _ _ h => by simp at h⟩
  | span rank => exact fresh _ rfl rfl ⟨fun _ => rfl, fun _ h => by simp [Kind.single] at h, fun h => by simp at h, fun _ _ h => by simp at h⟩
  | bool off max rank =>
    have : off = false := by simpa [Op.plain] using hop
    subst this
    exact fresh _ rfl rfl ⟨fun _ => rfl, fun _ h => by simp [Kind.single] at h, fun h => by simp at h, fun _ _ h => by simp at h; exact ⟨by first | exact h.1 | exact h.1.symm, rfl⟩⟩
  | queryFilter q rank =>
    simp only [Prog.may, Bool.and_eq_true, decide_eq_true_eq] at hmay
    obtain ⟨⟨hq, hk⟩, hr⟩ := hmay
    obtain ⟨o, e, l⟩ := live_held hs hq
    obtain ⟨h1, hs1⟩ := ref_ok hs e l
    refine Holds.step h1 ?_
    refine Holds.step (alloc_ok _ _) (Holds.pure (push ?_))
    refine hs1.alloc _ (fun y => by simp [Obj.refs, List.count_cons]) rfl ?_ ⟨fun h => by simp at h, fun _ h => by simp [Kind.single] at h, fun h => by simp at h, fun _ _ h => by simp at h⟩
    intro x hx
    simp only [Obj.refs, Option.toList_none, List.append_nil, List.mem_singleton] at hx
    subst hx
    rw [rankOf_some e] at hr
    exact ⟨{ o with cnt := o.cnt + 1 }, by rw [set_get _ e, if_pos rfl], hr, fun _ => by first | (show kidOk .filter o.kind = true; cases o.kind <;> rfl) | simp_all⟩
  | constScore f rank =>
    simp only [Prog.may, Bool.and_eq_true, decide_eq_true_eq] at hmay
    obtain ⟨⟨hq, hk⟩, hr⟩ := hmay
    obtain ⟨o, e, l⟩ := live_held hs hq
    obtain ⟨h1, hs1⟩ := ref_ok hs e l
    refine Holds.step h1 ?_
    refine Holds.step (alloc_ok _ _) (Holds.pure (push ?_))
    refine hs1.alloc _ (fun y => by simp [Obj.refs, List.count_cons]) rfl ?_ ⟨fun h => by simp at h, fun _ h => by simp [Kind.single] at h, fun h => by simp at h, fun _ _ h => by simp at h⟩
    intro x hx
    simp only [Obj.refs, Option.toList_some, List.nil_append, List.mem_singleton] at hx
    subst hx
    rw [rankOf_some e] at hr
    exact ⟨{ o with cnt := o.cnt + 1 }, by rw [set_get _ e, if_pos rfl], hr, fun _ => by first | exact isQuery_of e hk | simp_all⟩
  | filtered q f rank =>
    simp only [Prog.may, Bool.and_eq_true, decide_eq_true_eq] at hmay
    obtain ⟨⟨⟨⟨⟨hq, hk⟩, hr⟩, hf⟩, hkf⟩, hrf⟩ := hmay
    obtain ⟨o, e, l⟩ := live_held hs hq
    obtain ⟨fo, ef, lf⟩ := live_held hs hf
    have hne : f ≠ q := by
      rintro rfl
      unfold kindOf at hkf
      rw [ef] at hkf
      have := isQuery_of ef hk
      simp only [Option.map_some, Option.some.injEq] at hkf
      rw [hkf] at this
      simp [Kind.isQuery] at this
    refine Holds.step (alloc_ok _ _) (Holds.pure (push ?_))
    refine hs.alloc _ ?_ rfl ?_ ⟨fun h => by simp at h, fun _ _ => rfl, fun h => by simp at h, fun _ _ h => by simp at h⟩
    · intro y
      have h1 := count_erase_add hq y
      have h2 := count_erase_add ((List.mem_erase_of_ne hne).2 hf) y
      simp only [Obj.refs, Option.toList_some, List.count_append, List.count_cons, List.count_nil, beq_iff_eq]
      omega
    · intro x hx
      simp only [Obj.refs, Option.toList_some, List.singleton_append, List.mem_cons, List.not_mem_nil, or_false] at hx
      rw [rankOf_some e] at hr
      rw [rankOf_some ef] at hrf
      rcases hx with rfl | rfl
      · exact ⟨o, e, hr, fun _ => isQuery_of e hk⟩
      · refine ⟨fo, ef, hrf, fun hm => ?_⟩
        have hm : x ∈ [q] := hm
        exact absurd (List.mem_singleton.1 hm) hne
  | spanAdd s q =>
    simp only [Prog.may, Bool.and_eq_true, decide_eq_true_eq] at hmay
    obtain ⟨⟨⟨⟨h1, h2⟩, h3⟩, h4⟩, h5⟩ := hmay
    obtain ⟨so, es, ls⟩ := live_held hs h1
    obtain ⟨qo, eq, lq⟩ := live_held hs h3
    rw [rankOf_some es, rankOf_some eq] at h5
    unfold kindOf at h2
    rw [es] at h2
    refine Holds.bind (Holds.mono (spanAdd_ok hs es ls (by simpa using h2) eq lq (isQuery_of eq h4) h5) (fun _ _ h => h) (fun _ h => h.elim)) ?_
    intro _ h' hs'
    exact Holds.pure hs'
  | add b q occur =>
    simp only [Prog.may, Bool.and_eq_true, decide_eq_true_eq] at hmay
    obtain ⟨⟨⟨⟨h1, h2⟩, h3⟩, h4⟩, h5⟩ := hmay
    obtain ⟨bo, eb, lb⟩ := live_held hs h1
    obtain ⟨qo, eq, lq⟩ := live_held hs h3
    obtain ⟨off, m, hk⟩ := isBool_of eb h2
    rw [rankOf_some eb, rankOf_some eq] at h5
    obtain ⟨hr, hs1⟩ := ref_ok hs eq lq
    have eb1 : (h.set q { qo with cnt := qo.cnt + 1 })[b]? = some bo := by
      rw [set_get _ eq, if_neg]
      · exact eb
      · rintro rfl
        rw [eb] at eq
        cases eq
        omega
    have hadd : Holds (addQuery b q occur) h (fun _ h' => St h' (ex ++ held)) (fun h' => ∃ ex', St h' (ex' ++ held)) := by
      unfold addQuery
      refine Holds.step hr ?_
      refine Holds.mono (addQueryNr_ok (qo := { qo with cnt := qo.cnt + 1 }) hs1 eb1 lb hk (by rw [set_get _ eq, if_pos rfl]) (by show qo.kind.isQuery = true; exact isQuery_of eq h4) h5 occur) (fun _ _ h => h) ?_
      rintro h' rfl
      exact ⟨q :: ex, hs1⟩
    refine Holds.bind hadd ?_
    intro _ h' hs'
    exact Holds.pure hs'
  | addNr b q occur =>
    simp only [Prog.may, Bool.and_eq_true, decide_eq_true_eq] at hmay
    obtain ⟨⟨⟨⟨h1, h2⟩, h3⟩, h4⟩, h5⟩ := hmay
    obtain ⟨bo, eb, lb⟩ := live_held hs h1
    obtain ⟨qo, eq, lq⟩ := live_held hs h3
    obtain ⟨off, m, hk⟩ := isBool_of eb h2
    rw [rankOf_some eb, rankOf_some eq] at h5
    refine Holds.bind (Holds.mono (addQueryNr_ok (erase_St hs h3) eb lb hk eq (isQuery_of eq h4) h5 occur) (fun _ _ h => h) ?_) ?_
    · rintro h' rfl
      exact ⟨ex, hs⟩
    · intro _ h' hs'
      exact Holds.pure hs'
  | ref r =>
    simp only [Prog.may, Bool.and_eq_true, decide_eq_true_eq] at hmay
    obtain ⟨o, e, l⟩ := live_held hs hmay.1
    obtain ⟨hr, hs1⟩ := ref_ok hs e l
    exact Holds.step hr (Holds.pure (push hs1))
  | deref r =>
    simp only [Prog.may, decide_eq_true_eq] at hmay
    obtain ⟨h', he, hs', _, _⟩ := release_ok (R := ex ++ held.erase r) (work := [r]) (ρ := rankOf h r) (erase_St hs hmay) (by intro x hx; rw [List.mem_singleton] at hx; rw [hx]; exact Nat.le_refl _)
    exact Holds.step he (Holds.pure hs')
  | weigh q =>
    simp only [Prog.may, Bool.and_eq_true, decide_eq_true_eq] at hmay
    obtain ⟨o, e, l⟩ := live_held hs hmay.1
    refine Holds.bind (Holds.mono (qWeight_ok n h _ q o hs e l (isQuery_of e hmay.2)) (fun _ _ h => h) ?_) ?_
    · rintro h' ⟨ex', hs', _⟩
      exact ⟨ex' ++ ex, by rw [List.append_assoc]; exact hs'⟩
    · rintro w h' ⟨hs', _, _⟩
      exact Holds.pure (push hs')

theorem step_ok (n : Nat) (op : Op) (p : Prog) (hp : Fine p) (hop : op.plain = true) : ∃ r, p.step n op = some r ∧ ∀ p', r = some p' → Fine p' := by
  obtain ⟨ex, hs, hf⟩ := hp.st
  unfold Prog.step
  by_cases hm : p.may op = true
  · rw [if_pos hm]
    have := act_ok n op p ex hs hop hm
    unfold Holds at this
    cases e : Prog.act n p.held op p.heap with
    | ok held h => rw [e] at this; exact ⟨_, rfl, fun p' hp' => by cases hp'; exact ⟨ex, this, hf⟩⟩
    | raised h =>
      rw [e] at this
      obtain ⟨ex', hs'⟩ := this
      exact ⟨_, rfl, fun p' hp' => by cases hp'; exact ⟨ex', hs', fun h => by cases h⟩⟩
    | ub => rw [e] at this; exact this.elim
    | long => exact ⟨none, rfl, fun p' hp' => by cases hp'⟩
  · rw [if_neg hm]
    exact ⟨_, rfl, fun p' hp' => by cases hp'; exact hp⟩

theorem run_ok (n : Nat) : ∀ (ops : List Op) (p : Prog), Fine p → (∀ op ∈ ops, op.plain = true) → ∃ r, p.run n ops = some r ∧ ∀ p', r = some p' → Fine p' := by
  intro ops
  induction ops with
  | nil => intro p hp _; exact ⟨_, rfl, fun p' hp' => by cases hp'; exact hp⟩
  | cons op ops ih =>
    intro p hp hops
    obtain ⟨r, he, hr⟩ := step_ok n op p hp (hops op (by simp))
    unfold Prog.run
    rw [he]
    cases r with
    | none => exact ⟨none, rfl, fun p' hp' => by cases hp'⟩
    | some p' => exact ih p' (hr p' rfl) (fun o ho => hops o (List.mem_cons_of_mem _ ho))

theorem start_fine : Fine Prog.start := ⟨⟨[], ⟨fun r => by simp [Prog.start, cntOf, allRefs], fun x o e => by simp [Prog.start] at e, fun x o e => by simp [Prog.start] at e⟩, fun _ => rfl⟩⟩

/-- Without references nothing is left. -/
theorem no_leak {h : Heap} (hs : St h []) : ∀ o ∈ h, o.cnt = 0 := by
  have key : ∀ (d : Nat) (x : Ref) (o : Obj), h[x]? = some o → (h.map Obj.rank).sum < o.rank + d → o.cnt = 0 := by
    intro d
    induction d with
    | zero =>
      intro x o e hlt
      exfalso
      have : ∀ (l : List Obj), o ∈ l → o.rank ≤ (l.map Obj.rank).sum := by
        intro l
        induction l with
        | nil => intro h; cases h
        | cons a l ih =>
          intro h
          rw [List.map_cons, List.sum_cons]
          rcases List.mem_cons.1 h with rfl | h
          · omega
          · have := ih h; omega
      have := this h (List.mem_of_getElem? e)
      omega
    | succ d ih =>
      intro x o e hlt
      have hc := hs.count x
      rw [cntOf_some e, List.count_nil, Nat.zero_add] at hc
      by_cases h0 : (allRefs h).count x = 0
      · omega
      · exfalso
        obtain ⟨po, hp, hr⟩ := List.mem_flatMap.1 (List.count_pos_iff.1 (Nat.pos_of_ne_zero h0))
        obtain ⟨p, ep⟩ := List.mem_iff_getElem?.1 hp
        obtain ⟨o1, e1, r1, _⟩ := hs.owns p po ep x hr
        rw [e] at e1
        cases e1
        have := ih p po ep (by omega)
        rw [(hs.shape p po ep).zero this] at hr
        cases hr
  intro o ho
  obtain ⟨x, e⟩ := List.mem_iff_getElem?.1 ho
  exact key ((h.map Obj.rank).sum + 1) x o e (by omega)

end Ferret.Rc
