import Verif.Lemmas.RefCount

/-! Rewriting keeps counts right. -/

namespace Ferret.Rc
open Ferret
open Ferret.Spec (Occur)

local notation "Ref" => Nat

/-- What rewriting a query does. -/
def RwOk (rw : Ref → M Ref) : Prop := ∀ (h : Heap) (R : List Ref) (r : Ref) (o : Obj), St h R → h[r]? = some o → 0 < o.cnt → o.kind.isQuery = true →
  Holds (rw r) h (fun r' h' => St h' (r' :: R) ∧ Keep h h' ∧ Above o.rank h h' ∧ ∃ o', h'[r']? = some o' ∧ o'.kind.isQuery = true ∧ o'.rank ≤ o.rank) (Exc h R)

theorem count_set {l : List Ref} {i : Nat} {q : Ref} (e : l[i]? = some q) (k y : Ref) : (l.set i k).count y + (if q = y then 1 else 0) = l.count y + (if k = y then 1 else 0) := by
  induction l generalizing i with
  | nil => simp at e
  | cons a l ih =>
    cases i with
    | zero =>
      rw [List.getElem?_cons_zero] at e
      cases e
      simp only [List.set_cons_zero, List.count_cons, beq_iff_eq]
      omega
    | succ i =>
      rw [List.getElem?_cons_succ] at e
      have := ih e
      simp only [List.set_cons_succ, List.count_cons]
      omega

/-- A kid is replaced. -/
theorem setKid_ok {h : Heap} {R : List Ref} {s i q k : Ref} {o ok : Obj} (hs : St h (k :: R)) (e : h[s]? = some o) (hl : 0 < o.cnt) (hi : o.kids[i]? = some q)
    (ek : h[k]? = some ok) (hr : ok.rank < o.rank) (hk : kidOk o.kind ok.kind = true) :
    setKid s i k h = .ok () (h.set s { o with kids := o.kids.set i k }) ∧ St (h.set s { o with kids := o.kids.set i k }) (q :: R) := by
  constructor
  · show (M.bind (get s) _) h = _
    unfold M.bind
    rw [get_ok e hl]
    rfl
  · refine hs.set e _ rfl rfl ?_ ?_ ?_
    · intro y
      have := count_set hi k y
      simp only [Obj.refs, List.count_append, List.count_cons, beq_iff_eq]
      omega
    · intro x hx
      unfold Obj.refs at hx
      rcases List.mem_append.1 hx with hx | hx
      · rcases List.mem_or_eq_of_mem_set hx with hx' | rfl
        · obtain ⟨ox, ex, rx, kx⟩ := hs.owns s o e x (List.mem_append_left _ hx')
          exact ⟨ox, ex, rx, fun _ => kx hx'⟩
        · exact ⟨ok, ek, hr, fun _ => hk⟩
      · obtain ⟨ox, ex, rx, kx⟩ := hs.owns s o e x (List.mem_append_right _ hx)
        refine ⟨ox, ex, rx, fun hm => ?_⟩
        rcases List.mem_or_eq_of_mem_set hm with hm' | rfl
        · exact kx hm'
        · rw [ek] at ex
          cases ex
          exact hk
    · have := hs.shape s o e
      exact ⟨fun h => by have : o.cnt = 0 := h; omega, fun _ hsi => by rw [List.length_set]; exact this.single hl hsi, this.range, this.plain⟩

/-! ### Span queries -/

theorem spanStep_ok {rw : Ref → M Ref} (hrw : RwOk rw) {h : Heap} {R : List Ref} {s i : Ref} {o : Obj} (hs : St h R) (e : h[s]? = some o) (hl : 0 < o.cnt) (hk : o.kind = .span)
    (hi : i < o.kids.length) :
    Holds (spanStep rw s i) h (fun _ h' => St h' R ∧ Keep h h' ∧ Above o.rank h h' ∧
      ∃ o', h'[s]? = some o' ∧ o'.cnt = o.cnt ∧ o'.kind = o.kind ∧ o'.rank = o.rank ∧ o'.kids.length = o.kids.length) (Exc h R) := by
  unfold spanStep
  refine Holds.get e hl ?_
  have hq : o.kids[i]? = some o.kids[i] := List.getElem?_eq_getElem hi
  rw [hq]
  refine Holds.step (a := o.kids[i]) (h' := h) rfl ?_
  obtain ⟨oq, eq, lq, rq, kq⟩ := hs.kid e (List.getElem_mem hi)
  rw [hk] at kq
  refine Holds.bind (hrw h R _ oq hs eq lq kq) ?_
  rintro r1 h1 ⟨hs1, hk1, ha1, o1, e1, q1, k1⟩
  have e' := ha1 s o e rq
  obtain ⟨hset, hs2⟩ := setKid_ok hs1 e' hl hq e1 (by omega) (by rw [hk]; exact q1)
  refine Holds.step hset ?_
  have hk2 : Keep h1 (h1.set s { o with kids := o.kids.set i r1 }) := keep_set e' rfl rfl
  obtain ⟨h3, he3, hs3, hk3, ha3⟩ := release_ok (work := [o.kids[i]]) (ρ := oq.rank) hs2 (by
    intro x hx
    rw [List.mem_singleton] at hx
    obtain ⟨o2, e2, _, r2⟩ := (hk1.trans hk2) _ oq eq
    unfold rankOf
    rw [hx, e2]
    exact Nat.le_of_eq r2)
  refine Holds.of_ok he3 ⟨hs3, (hk1.trans hk2).trans hk3, ?_, ?_⟩
  · exact ((ha1.mono (by omega)).trans (above_set e' (Nat.le_refl _))).trans (ha3.mono (by omega))
  · refine ⟨{ o with kids := o.kids.set i r1 }, ha3 s _ (by rw [set_get h1 e', if_pos rfl]) rq, rfl, rfl, rfl, List.length_set⟩

theorem spanLoop_ok {rw : Ref → M Ref} (hrw : RwOk rw) {R : List Ref} {s : Ref} : ∀ (k i : Nat) (h : Heap) (o : Obj), St h R → h[s]? = some o → 0 < o.cnt → o.kind = .span →
    i + k ≤ o.kids.length →
    Holds (spanLoop rw k i s) h (fun _ h' => St h' R ∧ Keep h h' ∧ Above o.rank h h' ∧
      ∃ o', h'[s]? = some o' ∧ o'.cnt = o.cnt ∧ o'.kind = o.kind ∧ o'.rank = o.rank) (Exc h R) := by
  intro k
  induction k with
  | zero => intro i h o hs e hl hk _; exact Holds.pure ⟨hs, Keep.refl h, Above.refl _ h, o, e, rfl, rfl, rfl⟩
  | succ k ih =>
    intro i h o hs e hl hk hi
    unfold spanLoop
    refine Holds.bind (spanStep_ok hrw hs e hl hk (by omega)) ?_
    rintro _ h1 ⟨hs1, hk1, ha1, o1, e1, c1, k1, r1, l1⟩
    refine Holds.mono (ih (i + 1) h1 o1 hs1 e1 (by omega) (by rw [k1]; exact hk) (by omega)) ?_ ?_
    · rintro _ h2 ⟨hs2, hk2, ha2, o2, e2, c2, k2, r2⟩
      exact ⟨hs2, hk1.trans hk2, ha1.trans (by rw [← r1]; exact ha2), o2, e2, by omega, by rw [k2, k1], by omega⟩
    · intro h' he
      exact Exc.trans hk1 [] (fun _ => rfl) he

/-! ### Boolean queries -/

theorem asClause_ok {h : Heap} {R : List Ref} (hs : St h R) {b : Ref} {o : Obj} (e : h[b]? = some o) {off : Bool} {m : Nat} (hk : o.kind = .bool off m) {c : Ref} (hc : c ∈ o.kids) :
    ∃ co oc q, h[c]? = some co ∧ 0 < co.cnt ∧ co.kind = .clause oc ∧ co.kids = [q] ∧ co.rank < o.rank ∧ (∀ h', asClause co h' = .ok (oc, q) h') ∧
      ∃ qo, h[q]? = some qo ∧ 0 < qo.cnt ∧ qo.kind.isQuery = true ∧ qo.rank < co.rank := by
  obtain ⟨co, ec, lc, rc, kc⟩ := hs.kid e hc
  rw [hk] at kc
  cases hck : co.kind with
  | clause oc =>
    have h1 := (hs.shape c co ec).single lc (by rw [hck]; rfl)
    obtain ⟨q, hq⟩ := List.length_eq_one_iff.1 h1
    obtain ⟨qo, eq, lq, rq, kq⟩ := hs.kid ec (k := q) (by rw [hq]; simp)
    rw [hck] at kq
    refine ⟨co, oc, q, ec, lc, hck, hq, rc, ?_, qo, eq, lq, kq, rq⟩
    intro h'
    unfold asClause
    rw [hck, hq]
    rfl
  | leaf => rw [hck] at kc; simp [kidOk] at kc
  | pattern => rw [hck] at kc; simp [kidOk] at kc
  | range => rw [hck] at kc; simp [kidOk] at kc
  | constScore => rw [hck] at kc; simp [kidOk] at kc
  | filtered => rw [hck] at kc; simp [kidOk] at kc
  | span => rw [hck] at kc; simp [kidOk] at kc
  | bool _ _ => rw [hck] at kc; simp [kidOk] at kc
  | filter => rw [hck] at kc; simp [kidOk] at kc
  | similarity => rw [hck] at kc; simp [kidOk] at kc
  | weight => rw [hck] at kc; simp [kidOk] at kc

theorem lone_ok {h : Heap} {R : List Ref} (hs : St h R) {b : Ref} {o : Obj} (e : h[b]? = some o) {off : Bool} {m : Nat} (hk : o.kind = .bool off m) :
    ∃ one, lone o.kids h = .ok one h ∧ ∀ q, one = some q → ∃ qo, h[q]? = some qo ∧ 0 < qo.cnt ∧ qo.kind.isQuery = true ∧ qo.rank < o.rank := by
  rcases hkk : o.kids with _ | ⟨c, _ | ⟨d, t⟩⟩
  · exact ⟨none, rfl, fun q hq => by cases hq⟩
  · obtain ⟨co, oc, q, ec, lc, _, _, rc, hcl, qo, eq, lq, kq, rq⟩ := asClause_ok hs e hk (c := c) (by rw [hkk]; simp)
    refine ⟨if oc = .mustNot then none else some q, ?_, ?_⟩
    · show (M.bind (get c) _) h = _
      unfold M.bind
      rw [get_ok ec lc]
      show (M.bind (asClause co) _) h = _
      unfold M.bind
      rw [hcl]
      rfl
    · intro q' hq'
      split at hq'
      · cases hq'
      · cases hq'
        exact ⟨qo, eq, lq, kq, by omega⟩
  · exact ⟨none, rfl, fun q hq => by cases hq⟩

theorem refAll_ok {R : List Ref} {ρ : Nat} : ∀ (rs : List Ref) (h : Heap) (_ : ∀ x ∈ rs, ∃ o, h[x]? = some o ∧ 0 < o.cnt ∧ o.rank ≤ ρ), St h R →
    ∃ h', refAll rs h = .ok () h' ∧ St h' (rs ++ R) ∧ Keep h h' ∧ Above ρ h h' ∧ (∀ (x : Ref) (o : Obj), h[x]? = some o → x ∉ rs → h'[x]? = some o) ∧ h'.length = h.length := by
  intro rs
  induction rs generalizing R with
  | nil => intro h _ hs; exact ⟨h, rfl, hs, Keep.refl h, Above.refl ρ h, fun _ _ e _ => e, rfl⟩
  | cons r rs ih =>
    intro h hl hs
    obtain ⟨o, e, lo, ro⟩ := hl r (by simp)
    obtain ⟨h1, hs1⟩ := ref_ok hs e lo
    obtain ⟨h', e', hs', hk', ha', hn', hlen⟩ := ih (R := r :: R) (h.set r { o with cnt := o.cnt + 1 }) (by
      intro x hx
      obtain ⟨ox, ex, lx, rx⟩ := hl x (List.mem_cons_of_mem _ hx)
      rw [set_get h e]
      by_cases hxr : x = r
      · rw [if_pos hxr]; exact ⟨_, rfl, Nat.succ_pos _, ro⟩
      · rw [if_neg hxr]; exact ⟨ox, ex, lx, rx⟩) hs1
    refine ⟨h', ?_, hs'.congr ?_, (keep_set (o' := { o with cnt := o.cnt + 1 }) e rfl rfl).trans hk', (above_set e ro).trans ha', ?_, by rw [hlen, List.length_set]⟩
    · show (M.bind (ref r) _) h = _
      unfold M.bind
      rw [h1]
      exact e'
    · intro y
      simp only [List.cons_append, List.count_append, List.count_cons]
      omega
    · intro x ox ex hx
      rw [List.mem_cons, not_or] at hx
      exact hn' x ox (by rw [set_get h e, if_neg hx.1]; exact ex) hx.2

/-- Where the loop of bq_rewrite is: `self` is the query itself or a copy of it with some clauses replaced. -/
structure Looping (h : Heap) (R : List Ref) (r : Ref) (o : Obj) (me : Ref) (rewritten : Bool) (i : Nat) : Prop where
  st : St h (me :: R)
  orig : ∃ co, h[r]? = some co ∧ co.kids = o.kids ∧ co.rank = o.rank ∧ co.aux = o.aux ∧ co.kind = o.kind ∧ (rewritten = false → co.cnt = o.cnt + 1 ∧ me = r)
  copy : rewritten = true → me ≠ r ∧ ∃ so, h[me]? = some so ∧ so.kind = o.kind ∧ so.rank = o.rank ∧ so.kids.length = o.kids.length ∧ ∀ j, i ≤ j → so.kids[j]? = o.kids[j]?

theorem target_ok {h : Heap} {R : List Ref} {r self q : Ref} {o : Obj} {rewritten : Bool} {i : Nat} (hl : 0 < o.cnt) {off : Bool} {m : Nat} (hk : o.kind = .bool off m)
    (hL : Looping h (q :: R) r o self rewritten i) :
    ∃ self' h', target self rewritten h = .ok self' h' ∧ Looping h' (q :: R) r o self' true i ∧ Keep h h' ∧ Above o.rank h h' ∧
      (∀ (x : Ref) (ox : Obj), h[x]? = some ox → x ∉ o.kids → x ≠ r → h'[x]? = some ox) := by
  unfold target
  cases rewritten with
  | true => exact ⟨self, h, rfl, hL, Keep.refl h, Above.refl _ h, fun _ _ e _ _ => e⟩
  | false =>
    obtain ⟨co, ec, kc, rc, ac, dc, hc⟩ := hL.orig
    obtain ⟨hcnt, rfl⟩ := hc rfl
    have hkids : ∀ x ∈ co.kids, ∃ o, h[x]? = some o ∧ 0 < o.cnt ∧ o.rank ≤ co.rank - 1 ∧ o.rank < co.rank ∧ kidOk co.kind o.kind = true := by
      intro x hx
      obtain ⟨ox, ex, lx, rx, kx⟩ := hL.st.kid ec hx
      exact ⟨ox, ex, lx, by omega, rx, kx⟩
    obtain ⟨h1, e1, hs1, hk1, ha1, hn1, hlen1⟩ := refAll_ok (ρ := co.rank) co.kids h (fun x hx => by obtain ⟨o, e, l, _, rr, _⟩ := hkids x hx; exact ⟨o, e, l, by omega⟩) hL.st
    have hself : self ∉ co.kids := by
      intro hm
      obtain ⟨ox, ex, _, _, rx, _⟩ := hkids self hm
      rw [ec] at ex
      cases ex
      omega
    have ec1 := hn1 self co ec hself
    -- the copy
    have haux : co.aux = none := ((hL.st.shape self co ec).plain off m (by rw [dc]; exact hk)).2
    have hs2 : St (h1 ++ [{ co with cnt := 1 }]) (h1.length :: (self :: q :: R)) := by
      refine hs1.alloc _ ?_ rfl ?_ ?_
      · intro y
        simp only [Obj.refs, haux, Option.toList_none, List.append_nil, List.count_append]
        omega
      · exact owns_keep (hs1.owns self co ec1) (Keep.refl _)
      · have := hs1.shape self co ec1
        exact ⟨fun h => by simp at h, fun _ hsi => this.single (by omega) hsi, this.range, this.plain⟩
    have ec2 : (h1 ++ [{ co with cnt := 1 }])[self]? = some co := by
      rw [append_get, if_neg (by have := lt_of_some ec1; omega)]
      exact ec1
    obtain ⟨e3, hs3⟩ := unref_ok (r := self) (R := h1.length :: q :: R) (hs2.congr (by intro y; simp only [List.count_cons]; omega)) ec2 (by omega)
    refine ⟨h1.length, _, ?_, ⟨hs3, ?_, ?_⟩, ?_, ?_, ?_⟩
    · show (M.bind (get self) _) h = _
      unfold M.bind
      rw [get_ok ec (by omega)]
      show (M.bind (refAll co.kids) _) h = _
      unfold M.bind
      rw [e1]
      show (M.bind (alloc _) _) h1 = _
      unfold M.bind
      rw [alloc_ok]
      show (M.bind (unref self) _) _ = _
      unfold M.bind
      rw [e3]
      rfl
    · refine ⟨{ co with cnt := co.cnt - 1 }, by rw [set_get _ ec2, if_pos rfl], kc, rc, ac, dc, fun h => by cases h⟩
    · intro _
      have hne : h1.length ≠ self := by have := lt_of_some ec1; omega
      refine ⟨hne, { co with cnt := 1 }, ?_, dc, rc, by rw [kc], fun j _ => by rw [kc]⟩
      rw [set_get _ ec2, if_neg hne, append_get, if_pos rfl]
    · exact (hk1.trans (keep_append h1 _)).trans (keep_set ec2 rfl rfl)
    · rw [← rc]
      exact (ha1.trans (above_append h1 _ _)).trans (above_set ec2 (Nat.le_refl _))
    · intro x ox ex hx hxr
      rw [set_get _ ec2, if_neg hxr, append_get, if_neg]
      · exact hn1 x ox ex (by rw [kc]; exact hx)
      · have := lt_of_some ex; omega

theorem unref_eq {h : Heap} {r : Ref} {o : Obj} (e : h[r]? = some o) (hl : 0 < o.cnt) : unref r h = .ok () (h.set r { o with cnt := o.cnt - 1 }) := by
  show (M.bind (get r) _) h = _
  unfold M.bind
  rw [get_ok e hl]
  rfl

/-- The object that is worked on. -/
theorem Looping.obj {h : Heap} {R : List Ref} {r me : Ref} {o : Obj} {rewritten : Bool} {i : Nat} (hL : Looping h R r o me rewritten i) :
    ∃ so, h[me]? = some so ∧ 0 < so.cnt ∧ so.kind = o.kind ∧ so.rank = o.rank ∧ so.kids.length = o.kids.length ∧ ∀ j, i ≤ j → so.kids[j]? = o.kids[j]? := by
  obtain ⟨so, es, ls⟩ := hL.st.live (r := me) (.inl (by simp))
  refine ⟨so, es, ls, ?_⟩
  cases rewritten with
  | true =>
    obtain ⟨_, so', es', h1, h2, h3, h4⟩ := hL.copy rfl
    rw [es] at es'
    cases es'
    exact ⟨h1, h2, h3, h4⟩
  | false =>
    obtain ⟨co, ec, kc, rc, _, dc, hc⟩ := hL.orig
    obtain ⟨_, hm⟩ := hc rfl
    rw [hm, ec] at es
    cases es
    exact ⟨dc, rc, by rw [kc], fun j _ => by rw [kc]⟩

theorem Looping.keep {h h' : Heap} {R R' : List Ref} {r me : Ref} {o : Obj} {rewritten : Bool} {i i' : Nat} (hL : Looping h R r o me rewritten i) (hs : St h' (me :: R')) (hi : i ≤ i') {ρ : Nat}
    (ha : Above ρ h h') (hρ : ρ < o.rank) : Looping h' R' r o me rewritten i' := by
  refine ⟨hs, ?_, ?_⟩
  · obtain ⟨co, ec, kc, rc, ac, dc, hc⟩ := hL.orig
    exact ⟨co, ha r co ec (by omega), kc, rc, ac, dc, hc⟩
  · intro hr
    obtain ⟨hne, so, es, h1, h2, h3, h4⟩ := hL.copy hr
    exact ⟨hne, so, ha me so es (by omega), h1, h2, h3, fun j hj => h4 j (by omega)⟩

theorem bqStep_ok {rw : Ref → M Ref} (hrw : RwOk rw) {h : Heap} {R : List Ref} {r me : Ref} {o : Obj} {rewritten : Bool} {i : Nat} (hl : 0 < o.cnt) {off : Bool} {m : Nat}
    (hk : o.kind = .bool off m) (hL : Looping h R r o me rewritten i) (hi : i < o.kids.length) :
    Holds (bqStep rw me rewritten i) h (fun s h' => Looping h' R r o s.1 s.2.1 (i + 1) ∧ Keep h h' ∧ Above o.rank h h') (Exc h R) := by
  obtain ⟨so, es, ls, ks, rs, lens, kids⟩ := hL.obj
  have hci : so.kids[i]? = some o.kids[i] := by rw [kids i (Nat.le_refl _), List.getElem?_eq_getElem hi]
  generalize hc : o.kids[i] = c at hci
  obtain ⟨co, oc, q, ec, lc, kc, kq, rc, hcl, qo, eq, lq, qq, rq⟩ := asClause_ok hL.st es (by rw [ks]; exact hk) (c := c) (List.mem_of_getElem? hci)
  unfold bqStep
  refine Holds.get es ls ?_
  rw [hci]
  refine Holds.step (a := c) (h' := h) rfl ?_
  refine Holds.get ec lc ?_
  refine Holds.step (hcl h) ?_
  refine Holds.bind (Holds.mono (hrw h (me :: R) q qo hL.st eq lq qq) (fun _ _ h => h) (fun h' he => Exc.trans (Keep.refl h) [me] (fun _ => rfl) he)) ?_
  rintro r1 h1 ⟨hs1, hk1, ha1, o1, e1, q1, k1⟩
  have es1 := ha1 me so es (by omega)
  have ec1 := ha1 c co ec rq
  show Holds (if r1 ≠ q then _ else _) h1 _ _
  by_cases hne : r1 ≠ q
  · rw [if_pos hne]
    have hL1 : Looping h1 (r1 :: R) r o me rewritten i := hL.keep (hs1.congr (by intro y; simp only [List.count_cons]; omega)) (Nat.le_refl _) ha1 (by omega)
    obtain ⟨t, h2, ht, hL2, hk2, ha2, _⟩ := target_ok hl hk hL1
    refine Holds.step ht ?_
    obtain ⟨htr, so2, es2, ks2, rs2, lens2, kids2⟩ := hL2.copy rfl
    obtain ⟨cr, er, kr, rr, _, dr, _⟩ := hL2.orig
    have hci2 : so2.kids[i]? = some c := by rw [kids2 i (Nat.le_refl _), List.getElem?_eq_getElem hi, hc]
    obtain ⟨co2, ec2, lc2, rc2, _⟩ := hL2.st.kid es2 (List.mem_of_getElem? hci2)
    have hcr : co2.rank = co.rank := by
      obtain ⟨x, ex, _, rx⟩ := hk2 c co ec1
      rw [ec2] at ex
      cases ex
      exact rx
    obtain ⟨o2, e2, q2, k2⟩ := hk2 r1 o1 e1
    have lso2 : 0 < so2.cnt := by
      obtain ⟨x, ex, lx⟩ := hL2.st.live (r := t) (.inl (by simp))
      rw [es2] at ex
      cases ex
      exact lx
    have hct : c ≠ t := by rintro rfl; rw [es2] at ec2; cases ec2; omega
    have hcr' : c ≠ r := by rintro rfl; rw [er] at ec2; cases ec2; omega
    -- the clause is also one of the original
    have htwo : 2 ≤ co2.cnt := by
      have h1 := hL2.st.count c
      have h2 := count_two h2 t r so2 cr c htr es2 er
      have h3 : 0 < so2.refs.count c := List.count_pos_iff.2 (List.mem_append_left _ (List.mem_of_getElem? hci2))
      have h4 : 0 < cr.refs.count c := List.count_pos_iff.2 (List.mem_append_left _ (by rw [kr]; exact List.mem_of_getElem? (by rw [List.getElem?_eq_getElem hi, hc])))
      rw [cntOf_some ec2] at h1
      omega
    -- allocate, replace, count down
    let nc : Obj := ⟨.clause oc, 1, [r1], none, co.rank⟩
    have hsA : St (h2 ++ [nc]) (h2.length :: t :: R) := by
      refine (hL2.st.congr (R' := r1 :: t :: R) (by intro y; simp only [List.count_cons]; omega)).alloc nc ?_ rfl ?_ ?_
      · intro y; simp [nc, Obj.refs, List.count_cons]
      · intro x hx
        simp only [nc, Obj.refs, Option.toList_none, List.append_nil, List.mem_singleton] at hx
        subst hx
        exact ⟨o2, e2, by show o2.rank < co.rank; omega, fun _ => by show o2.kind.isQuery = true; rw [q2]; exact q1⟩
      · exact ⟨fun h => by simp [nc] at h, fun _ _ => rfl, fun h => by simp [nc] at h, fun _ _ h => by simp [nc] at h⟩
    have esA : (h2 ++ [nc])[t]? = some so2 := by rw [append_get, if_neg (by have := lt_of_some es2; omega)]; exact es2
    have enA : (h2 ++ [nc])[h2.length]? = some nc := by rw [append_get, if_pos rfl]
    obtain ⟨_, hsB⟩ := setKid_ok hsA esA lso2 hci2 enA (by show co.rank < so2.rank; omega) (by rw [ks2, hk]; rfl)
    have ecB : ((h2 ++ [nc]).set t { so2 with kids := so2.kids.set i h2.length })[c]? = some co2 := by
      rw [set_get _ esA, if_neg hct, append_get, if_neg (by have := lt_of_some ec2; omega)]
      exact ec2
    obtain ⟨_, hsC⟩ := unref_ok hsB ecB htwo
    -- in the order of the code
    refine Holds.step (unref_eq ec2 lc2) ?_
    refine Holds.step (alloc_ok _ _) ?_
    have hlen : (h2.set c { co2 with cnt := co2.cnt - 1 }).length = h2.length := List.length_set
    have esX : (h2.set c { co2 with cnt := co2.cnt - 1 } ++ [nc])[t]? = some so2 := by
      rw [append_get, if_neg (by have := lt_of_some es2; omega), set_get _ ec2, if_neg (fun h => hct h.symm)]
      exact es2
    have hset : setKid t i (h2.set c { co2 with cnt := co2.cnt - 1 }).length (h2.set c { co2 with cnt := co2.cnt - 1 } ++ [nc]) =
        .ok () (((h2 ++ [nc]).set t { so2 with kids := so2.kids.set i h2.length }).set c { co2 with cnt := co2.cnt - 1 }) := by
      show (M.bind (get t) _) _ = _
      unfold M.bind
      rw [get_ok esX lso2, hlen]
      show Out.ok () (List.set _ _ _) = _
      congr 1
      rw [List.set_comm _ _ (fun h => hct h.symm), List.set_append_left _ _ (lt_of_some ec2)]
    refine Holds.step hset ?_
    refine Holds.pure ⟨⟨hsC, ?_, ?_⟩, ?_, ?_⟩
    · refine ⟨cr, ?_, kr, rr, by assumption, dr, fun h => by cases h⟩
      rw [set_get _ ecB, if_neg (fun h => hcr' h.symm), set_get _ esA, if_neg (fun h => htr h.symm), append_get, if_neg (by have := lt_of_some er; omega)]
      exact er
    · intro _
      refine ⟨htr, { so2 with kids := so2.kids.set i h2.length }, ?_, ks2, rs2, by rw [← lens2]; exact List.length_set, ?_⟩
      · rw [set_get _ ecB, if_neg (fun h => hct h.symm), set_get _ esA, if_pos rfl]
      · intro j hj
        show (so2.kids.set i h2.length)[j]? = _
        rw [List.getElem?_set_ne (by omega)]
        exact kids2 j (by omega)
    · exact (((hk1.trans hk2).trans (keep_append h2 nc)).trans (keep_set (o' := { so2 with kids := so2.kids.set i h2.length }) esA rfl rfl)).trans
        (keep_set (o' := { co2 with cnt := co2.cnt - 1 }) ecB rfl rfl)
    · exact ((((ha1.mono (by omega)).trans ha2).trans (above_append h2 nc _)).trans (above_set esA (by omega))).trans (above_set ecB (by omega))
  · rw [if_neg hne]
    have hq : r1 = q := Decidable.not_not.1 hne
    subst hq
    have htwo : 2 ≤ o1.cnt := by
      have hc1 := hs1.count r1
      have hc2 : 0 < (allRefs h1).count r1 := List.count_pos_iff.2 (mem_allRefs ec1 (List.mem_append_left _ (by rw [kq]; simp)))
      rw [cntOf_some e1, List.count_cons, beq_self_eq_true, if_pos rfl] at hc1
      omega
    obtain ⟨hu, hs2⟩ := unref_ok hs1 e1 htwo
    refine Holds.step hu ?_
    have ha : Above qo.rank h (h1.set r1 { o1 with cnt := o1.cnt - 1 }) := ha1.trans (above_set e1 k1)
    exact Holds.pure ⟨hL.keep hs2 (by omega) ha (by omega), hk1.trans (keep_set e1 rfl rfl), ha.mono (by omega)⟩

theorem bqLoop_ok {rw : Ref → M Ref} (hrw : RwOk rw) {R : List Ref} {r : Ref} {o : Obj} (hl : 0 < o.cnt) {off : Bool} {m : Nat} (hk : o.kind = .bool off m) :
    ∀ (k i : Nat) (h : Heap) (me : Ref) (rewritten np : Bool), Looping h R r o me rewritten i → i + k ≤ o.kids.length →
    Holds (bqLoop rw k i me rewritten np) h (fun s h' => (∃ rewritten', Looping h' R r o s.1 rewritten' (i + k)) ∧ Keep h h' ∧ Above o.rank h h') (Exc h R) := by
  intro k
  induction k with
  | zero => intro i h me rewritten np hL _; exact Holds.pure ⟨⟨_, hL⟩, Keep.refl h, Above.refl _ h⟩
  | succ k ih =>
    intro i h me rewritten np hL hi
    unfold bqLoop
    refine Holds.bind (bqStep_ok hrw hl hk hL (by omega)) ?_
    rintro s h1 ⟨hL1, hk1, ha1⟩
    refine Holds.mono (ih (i + 1) h1 s.1 s.2.1 _ hL1 (by omega)) ?_ ?_
    · rintro s2 h2 ⟨⟨w, hL2⟩, hk2, ha2⟩
      exact ⟨⟨w, by rw [show i + (k + 1) = i + 1 + k by omega]; exact hL2⟩, hk1.trans hk2, ha1.trans ha2⟩
    · intro h' he
      exact Exc.trans hk1 [] (fun _ => rfl) he

theorem addMatchAll_ok {h : Heap} {R : List Ref} {me : Ref} {so : Obj} (hs : St h R) (e : h[me]? = some so) (hl : 0 < so.cnt) {off : Bool} {m : Nat} (hk : so.kind = .bool off m) (hr : 2 ≤ so.rank) :
    Holds (addMatchAll me) h (fun _ h' => St h' R ∧ Keep h h' ∧ Above so.rank h h' ∧ ∃ so', h'[me]? = some so' ∧ so'.kind = so.kind ∧ so'.rank = so.rank) (Exc h R) := by
  unfold addMatchAll
  refine Holds.step (alloc_ok _ _) ?_
  let mo : Obj := ⟨.leaf, 1, [], none, 0⟩
  have hs1 : St (h ++ [mo]) (h.length :: R) := hs.alloc mo (fun y => by simp [mo, Obj.refs]) rfl (fun x hx => by simp [mo, Obj.refs] at hx)
    ⟨fun _ => rfl, fun _ h => by simp [mo, Kind.single] at h, fun h => by simp [mo] at h, fun _ _ h => by simp [mo] at h⟩
  have e1 : (h ++ [mo])[me]? = some so := by rw [append_get, if_neg (by have := lt_of_some e; omega)]; exact e
  refine Holds.get e1 hl ?_
  split
  case h_2 hne => exact absurd hk (hne off m)
  rename_i off' m' hk'
  rw [hk] at hk'
  cases hk'
  show Holds (if m ≤ so.kids.length then _ else _) _ _ _
  by_cases hm : m ≤ so.kids.length
  · rw [if_pos hm]
    exact ⟨[h.length], hs1, keep_append h mo⟩
  · rw [if_neg hm]
    refine Holds.step (alloc_ok _ _) ?_
    let co : Obj := ⟨.clause .must, 1, [h.length], none, 1⟩
    have em : (h ++ [mo])[h.length]? = some mo := by rw [append_get, if_pos rfl]
    have hs2 : St ((h ++ [mo]) ++ [co]) ((h ++ [mo]).length :: R) := by
      refine hs1.alloc co (fun y => by simp [co, Obj.refs, List.count_cons]) rfl ?_ ⟨fun h => by simp [co] at h, fun _ _ => rfl, fun h => by simp [co] at h, fun _ _ h => by simp [co] at h⟩
      intro x hx
      simp only [co, Obj.refs, Option.toList_none, List.append_nil, List.mem_singleton] at hx
      subst hx
      exact ⟨mo, em, by show 0 < 1; omega, fun _ => rfl⟩
    have e2 : ((h ++ [mo]) ++ [co])[me]? = some so := by rw [append_get, if_neg (by have := lt_of_some e1; omega)]; exact e1
    have ec : ((h ++ [mo]) ++ [co])[(h ++ [mo]).length]? = some co := by rw [append_get, if_pos rfl]
    have hs3 : St (((h ++ [mo]) ++ [co]).set me { so with kids := so.kids ++ [(h ++ [mo]).length] }) R := by
      refine hs2.set e2 _ rfl rfl ?_ ?_ ?_
      · intro y
        simp only [Obj.refs, List.count_append, List.count_cons, List.count_nil]
        omega
      · intro x hx
        simp only [Obj.refs, List.mem_append, List.mem_singleton] at hx
        rcases hx with (hx | rfl) | hx
        · obtain ⟨ox, ex, rx, kx⟩ := hs2.owns me so e2 x (List.mem_append_left _ hx)
          exact ⟨ox, ex, rx, fun _ => kx hx⟩
        · exact ⟨co, ec, by show 1 < so.rank; omega, fun _ => by show kidOk so.kind _ = true; rw [hk]; rfl⟩
        · obtain ⟨ox, ex, rx, kx⟩ := hs2.owns me so e2 x (List.mem_append_right _ hx)
          refine ⟨ox, ex, rx, fun hm => ?_⟩
          have hm : x ∈ so.kids ++ [(h ++ [mo]).length] := hm
          rcases List.mem_append.1 hm with hm | hm
          · exact kx hm
          · rw [List.mem_singleton] at hm
            rw [hm, ec] at ex
            cases ex
            show kidOk so.kind _ = true
            rw [hk]
            rfl
      · have := hs2.shape me so e2
        refine ⟨fun h => by have : so.cnt = 0 := h; omega, fun _ hsi => ?_, this.range, this.plain⟩
        have hsi : so.kind.single = true := hsi
        rw [hk] at hsi
        simp [Kind.single] at hsi
    refine Holds.of_ok (put_ok _ _ _) ⟨hs3, ?_, ?_, ?_⟩
    · exact ((keep_append h mo).trans (keep_append _ co)).trans (keep_set e2 rfl rfl)
    · exact ((above_append h mo _).trans (above_append _ co _)).trans (above_set e2 (Nat.le_refl _))
    · exact ⟨{ so with kids := so.kids ++ [(h ++ [mo]).length] }, by rw [set_get _ e2, if_pos rfl], rfl, rfl⟩

theorem bqRewrite_ok {rw : Ref → M Ref} (hrw : RwOk rw) {h : Heap} {R : List Ref} {r : Ref} {o : Obj} (hs : St h R) (e : h[r]? = some o) (hl : 0 < o.cnt) {off : Bool} {m : Nat}
    (hk : o.kind = .bool off m) :
    Holds (bqRewrite rw r o.kids) h
      (fun r' h' => St h' (r' :: R) ∧ Keep h h' ∧ Above o.rank h h' ∧ ∃ o', h'[r']? = some o' ∧ o'.kind.isQuery = true ∧ o'.rank ≤ o.rank) (Exc h R) := by
  obtain ⟨one, ho, hone⟩ := lone_ok hs e hk
  unfold bqRewrite
  refine Holds.step ho ?_
  cases one with
  | some q =>
    obtain ⟨qo, eq, lq, kq, rq⟩ := hone q rfl
    refine Holds.mono (hrw h R q qo hs eq lq kq) ?_ (fun _ h => h)
    rintro r' h' ⟨hs', hk', ha', o', e', q', k'⟩
    exact ⟨hs', hk', ha'.mono (by omega), o', e', q', by omega⟩
  | none =>
    obtain ⟨hr, hs1⟩ := ref_ok hs e hl
    refine Holds.step hr ?_
    have e1 : (h.set r { o with cnt := o.cnt + 1 })[r]? = some { o with cnt := o.cnt + 1 } := by rw [set_get _ e, if_pos rfl]
    have hL : Looping (h.set r { o with cnt := o.cnt + 1 }) R r o r false 0 :=
      ⟨hs1, ⟨_, e1, rfl, rfl, rfl, rfl, fun _ => ⟨rfl, rfl⟩⟩, fun h => by cases h⟩
    have hk1 : Keep h (h.set r { o with cnt := o.cnt + 1 }) := keep_set e rfl rfl
    have ha1 : Above o.rank h (h.set r { o with cnt := o.cnt + 1 }) := above_set e (Nat.le_refl _)
    refine Holds.bind (Holds.mono (bqLoop_ok hrw hl hk o.kids.length 0 _ r false false hL (by omega)) (fun _ _ h => h) (fun h' he => Exc.trans hk1 [] (fun _ => rfl) he)) ?_
    rintro s h2 ⟨⟨w, hL2⟩, hk2, ha2⟩
    obtain ⟨so, es, ls, ks, rs, lens, _⟩ := hL2.obj
    show Holds (if o.kids.length ≠ 0 ∧ s.2 = false then _ else _) _ _ _
    by_cases hc : o.kids.length ≠ 0 ∧ s.2 = false
    · rw [if_pos hc]
      have hr2 : 2 ≤ so.rank := by
        have hmem : so.kids[0]'(by omega) ∈ so.kids := List.getElem_mem _
        obtain ⟨_, _, _, _, _, _, _, r1, _, _, _, _, _, r2⟩ := asClause_ok hL2.st es (by rw [ks]; exact hk) hmem
        omega
      refine Holds.bind (Holds.mono (addMatchAll_ok hL2.st es ls (by rw [ks]; exact hk) hr2) (fun _ _ h => h) (fun h' he => Exc.trans (hk1.trans hk2) [s.1] (fun _ => rfl) he)) ?_
      rintro _ h3 ⟨hs3, hk3, ha3, so3, e3, k3, r3⟩
      refine Holds.pure ⟨hs3, (hk1.trans hk2).trans hk3, (ha1.trans ha2).trans (by rw [← rs]; exact ha3), so3, e3, ?_, by omega⟩
      rw [k3, ks, hk]
      rfl
    · rw [if_neg hc]
      refine Holds.pure ⟨hL2.st, hk1.trans hk2, ha1.trans ha2, so, es, ?_, by omega⟩
      rw [ks, hk]
      rfl

theorem ref_pure_ok {h : Heap} {R : List Ref} {r : Ref} {o : Obj} (hs : St h R) (e : h[r]? = some o) (hl : 0 < o.cnt) (hq : o.kind.isQuery = true) (E : Heap → Prop) :
    Holds (do ref r; pure r) h (fun r' h' => St h' (r' :: R) ∧ Keep h h' ∧ Above o.rank h h' ∧ ∃ o', h'[r']? = some o' ∧ o'.kind.isQuery = true ∧ o'.rank ≤ o.rank) E := by
  obtain ⟨hr, hs1⟩ := ref_ok hs e hl
  refine Holds.step hr ?_
  exact Holds.pure ⟨hs1, keep_set e rfl rfl, above_set e (Nat.le_refl _), { o with cnt := o.cnt + 1 }, by rw [set_get _ e, if_pos rfl], hq, Nat.le_refl _⟩

theorem rewrite_ok : ∀ n, RwOk (rewrite n) := by
  intro n
  induction n with
  | zero => intro h R r o _ _ _ _; trivial
  | succ n ih =>
    intro h R r o hs e hl hq
    unfold rewrite
    refine Holds.get e hl ?_
    cases hk : o.kind with
    | leaf => exact ref_pure_ok hs e hl hq _
    | constScore => exact ref_pure_ok hs e hl hq _
    | filtered => exact ref_pure_ok hs e hl hq _
    | pattern =>
      refine Holds.of_ok (alloc_ok _ _) ⟨?_, keep_append h _, above_append h _ _, ⟨.leaf, 1, [], none, o.rank⟩, by rw [append_get, if_pos rfl], rfl, Nat.le_refl _⟩
      exact hs.alloc _ (fun y => by simp [Obj.refs]) rfl (fun x hx => by simp [Obj.refs] at hx)
        ⟨fun _ => rfl, fun _ h => by simp [Kind.single] at h, fun h => by simp at h, fun _ _ h => by simp at h⟩
    | range =>
      refine Holds.step (alloc_ok _ _) ?_
      have hs1 := hs.alloc (R' := R) ⟨.filter, 1, [], none, 0⟩ (fun y => by simp [Obj.refs]) rfl (fun x hx => by simp [Obj.refs] at hx)
        ⟨fun _ => rfl, fun _ h => by simp [Kind.single] at h, fun h => by simp at h, fun _ _ h => by simp at h⟩
      refine Holds.of_ok (alloc_ok _ _) ⟨?_, (keep_append h _).trans (keep_append _ _), (above_append h _ _).trans (above_append _ _ _), ⟨.constScore, 1, [], some h.length, o.rank⟩, by rw [append_get, if_pos rfl], rfl, Nat.le_refl _⟩
      have hr := (hs.shape r o e).range hk
      refine hs1.alloc _ (fun y => by simp [Obj.refs, List.count_cons]) rfl ?_ ⟨fun h => by simp at h, fun _ h => by simp [Kind.single] at h, fun h => by simp at h, fun _ _ h => by simp at h⟩
      intro x hx
      simp only [Obj.refs, Option.toList_some, List.nil_append, List.mem_singleton] at hx
      subst hx
      exact ⟨_, by rw [append_get, if_pos rfl], by show 0 < o.rank; omega, fun _ => rfl⟩
    | span =>
      refine Holds.bind (spanLoop_ok ih o.kids.length 0 h o hs e hl hk (by omega)) ?_
      rintro _ h1 ⟨hs1, hk1, ha1, o1, e1, c1, k1, r1⟩
      refine Holds.mono (ref_pure_ok hs1 e1 (by omega) (by rw [k1, hk]; rfl) (Exc h R)) ?_ (fun _ h => h)
      rintro r' h' ⟨hs', hk', ha', o', e', q', k'⟩
      exact ⟨hs', hk1.trans hk', ha1.trans (by rw [← r1]; exact ha'), o', e', q', by omega⟩
    | bool off m => exact bqRewrite_ok ih hs e hl hk
    | clause oc => rw [hk] at hq; simp [Kind.isQuery] at hq
    | filter => rw [hk] at hq; simp [Kind.isQuery] at hq
    | similarity => rw [hk] at hq; simp [Kind.isQuery] at hq
    | weight => rw [hk] at hq; simp [Kind.isQuery] at hq

end Ferret.Rc
