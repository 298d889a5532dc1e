import Verif.Lemmas.HashOps

/-!
Growing the table, and whole histories.
-/

namespace Ferret.Hash
open Ferret.Spec

variable {K V : Type}

theorem newSize_spec (fuel : Nat) : ∀ k min, min ≤ 2 ^ k * 2 ^ fuel →
    ∃ k', k ≤ k' ∧ newSize fuel (2 ^ k) min = 2 ^ k' ∧ min ≤ 2 ^ k' := by
  induction fuel with
  | zero => intro k min h; exact ⟨k, Nat.le_refl _, rfl, by simpa using h⟩
  | succ fuel ih =>
    intro k min h
    unfold newSize
    by_cases hlt : 2 ^ k < min
    · rw [if_pos hlt, show 2 * 2 ^ k = 2 ^ (k + 1) by rw [Nat.pow_succ]; omega]
      obtain ⟨k', h1, h2⟩ := ih (k + 1) min (by rw [Nat.pow_succ] at h ⊢; rw [Nat.mul_assoc, Nat.mul_comm 2]; exact h)
      exact ⟨k', by omega, h2⟩
    · rw [if_neg hlt]; exact ⟨k, Nat.le_refl _, rfl, by omega⟩

/-- No deleted slots: as many slots in use as entries. -/
theorem used_eq {F : Fns K} {tb : List (Entry K V)}
    (hl : ∀ (e : Entry K V) (k : K), e ∈ tb → e.key = .live k → ∃ v, e.value = some v) :
    used tb = (entries tb).length + tb.countP (fun e => match e.key with | .dummy => true | _ => false) := by
  induction tb with
  | nil => rfl
  | cons e tb ih =>
    have ih := ih (fun e' k h => hl e' k (List.mem_cons_of_mem _ h))
    simp only [used, entries] at ih ⊢
    simp only [List.countP_cons, List.filterMap_cons]
    cases hk : e.key with
    | null => rw [ent_dead (fun k h => by rw [hk] at h; cases h)]; simp [isUsed, hk]; omega
    | dummy => rw [ent_dead (fun k h => by rw [hk] at h; cases h)]; simp [isUsed, hk]; omega
    | live k =>
      obtain ⟨v, hv⟩ := hl e k List.mem_cons_self hk
      rw [ent_live hk hv]; simp [isUsed, hk]; omega

theorem no_dummy {F : Fns K} {tb : List (Entry K V)} (hI : TInv F tb) (hu : used tb = (entries tb).length) {j : Nat} {e : Entry K V}
    (h : tb[j]? = some e) : e.key ≠ .dummy := by
  have := used_eq (F := F) (tb := tb) (fun e k he hk => by
    obtain ⟨j, hj, hje⟩ := List.mem_iff_getElem.1 he
    exact (hI.live j e k (List.getElem?_eq_some_iff.2 ⟨hj, hje⟩) hk).2.2)
  intro hk
  have h0 : tb.countP (fun e => match e.key with | .dummy => true | _ => false) = 0 := by omega
  have := List.countP_eq_zero.1 h0 e (List.mem_of_getElem? h)
  simp [hk] at this

theorem resizeInto_spec {F : Fns K} (L : Laws F) :
    ∀ (es : List (Entry K V)) (n : Nat) (tb : List (Entry K V)), TInv F tb → (∃ k, tb.length = 2 ^ k) →
    used tb = (entries tb).length → n = (entries es).length → (entries tb).length + n < tb.length →
    (∀ (e : Entry K V) (k : K), e ∈ es → e.key = .live k → e.hash = F.hash k ∧ ∃ v, e.value = some v) →
    Distinct F (entries tb ++ entries es) →
    ∃ tb', resizeInto n es tb = .ok tb' ∧ TInv F tb' ∧ tb'.length = tb.length ∧ used tb' = (entries tb').length ∧
      (entries tb').Perm (entries tb ++ entries es) := by
  intro es
  induction es with
  | nil =>
    intro n tb hI hp hu hn hr hl hd
    simp only [entries, List.filterMap_nil, List.length_nil] at hn
    subst hn
    exact ⟨tb, rfl, hI, rfl, hu, by simp [entries]⟩
  | cons e es ih =>
    intro n tb hI hp hu hn hr hl hd
    have hl' : ∀ (e : Entry K V) (k : K), e ∈ es → e.key = .live k → e.hash = F.hash k ∧ ∃ v, e.value = some v :=
      fun e k h => hl e k (List.mem_cons_of_mem _ h)
    cases n with
    | zero =>
      have : entries (e :: es) = [] := List.length_eq_zero_iff.1 hn.symm
      exact ⟨tb, rfl, hI, rfl, hu, by rw [this, List.append_nil]⟩
    | succ n =>
      by_cases hk : ∃ k, e.key = .live k
      · obtain ⟨k, hk⟩ := hk
        obtain ⟨hh, v, hv⟩ := hl e k List.mem_cons_self hk
        have hE : entries (e :: es) = (k, v) :: entries es := by
          simp only [entries, List.filterMap_cons, ent_live hk hv]
        rw [hE] at hn hd ⊢
        simp only [List.length_cons] at hn
        obtain ⟨j, e0, h1, h2, h3, h4⟩ := resizeLookup_spec (room_of hp (by omega)) e.hash
        have hj := (List.getElem?_eq_some_iff.1 h2).1
        have hlv : ∀ (j' : Nat) (e'' : Entry K V) (k' : K), tb[j']? = some e'' → e''.key = .live k' → F.eq k' k = false := by
          intro j' e'' k' g1 g2
          obtain ⟨_, _, v', hv'⟩ := hI.live j' e'' k' g1 g2
          have : (k', v') ∈ entries tb := mem_entries.2 ⟨j', e'', g1, ent_live g2 hv'⟩
          exact (List.pairwise_append.1 hd).2.2 _ this _ List.mem_cons_self
        have hI' : TInv F (tb.set j e) := by
          refine hI.set L hj (.inl (by rw [hk]; intro h; cases h)) (fun h => absurd hk (h k)) ?_ ?_
          · intro k' hk'
            rw [hk] at hk'; cases hk'
            exact ⟨hh, hh ▸ h4, ⟨v, hv⟩, fun j' e'' k' _ => hlv j' e'' k'⟩
          · intro hq _
            refine ⟨h4, fun j' e'' g1 g2 g3 g4 => ?_⟩
            cases g5 : e''.key with
            | null => exact g3 g5
            | dummy => exact no_dummy hI hu g2 g5
            | live k' =>
              have := L.ptr hq k' k (by rw [← (hI.live _ _ _ g2 g5).1, g4, hh])
              rw [hlv j' e'' k' g2 g5] at this; cases this
        obtain ⟨rest, p1, p2⟩ := entries_set h2
        have p3 := p2 e
        rw [ent_dead (fun k h => by rw [h3] at h; cases h)] at p1
        rw [ent_live hk hv] at p3
        have p4 : (entries (tb.set j e)).Perm ((k, v) :: entries tb) := p3.trans (List.Perm.cons _ p1.symm)
        have hu' : used (tb.set j e) = (entries (tb.set j e)).length := by
          have := used_set h2 e
          have a1 : isUsed e = true := isUsed_iff.2 (by rw [hk]; intro h; cases h)
          have a2 : isUsed e0 = false := by simp [isUsed, h3]
          rw [a1, a2] at this
          rw [p4.length_eq]; simp at this ⊢; omega
        have p5 : (entries (tb.set j e) ++ entries es).Perm (entries tb ++ (k, v) :: entries es) :=
          (p4.append_right _).trans List.perm_middle.symm
        obtain ⟨tb', g1, g2, g3, g4, g5⟩ := ih n (tb.set j e) hI' (by rw [List.length_set]; exact hp) hu' (by omega)
          (by rw [p4.length_eq, List.length_set]; simp; omega) hl' (Distinct.perm L hd p5.symm)
        refine ⟨tb', ?_, g2, by rw [g3, List.length_set], g4, g5.trans p5⟩
        simp only [resizeInto, hk, h1, Res.ok_bind]
        exact g1
      · have hdead : ∀ k, e.key ≠ .live k := fun k h => hk ⟨k, h⟩
        have hE : entries (e :: es) = entries es := by
          simp only [entries, List.filterMap_cons, ent_dead hdead]
        rw [hE] at hn hd ⊢
        obtain ⟨tb', g1, g2⟩ := ih (n + 1) tb hI hp hu hn hr hl' hd
        refine ⟨tb', ?_, g2⟩
        cases hs : e.key with
        | null => simp only [resizeInto, hs]; exact g1
        | dummy => simp only [resizeInto, hs]; exact g1
        | live k => exact absurd hs (hdead k)

theorem tinv_empty {F : Fns K} (n : Nat) : TInv F (List.replicate n (Entry.zero : Entry K V)) := by
  have hz : ∀ (j : Nat) (e : Entry K V), (List.replicate n (Entry.zero : Entry K V))[j]? = some e → e = .zero := by
    intro j e h
    rw [List.getElem?_replicate] at h
    split at h
    · exact (Option.some.inj h).symm
    · cases h
  refine ⟨?_, ?_, ?_, ?_, ?_⟩
  · intro j e k h1 h2; rw [hz j e h1] at h2; cases h2
  · intro j e h1 _; rw [hz j e h1]; rfl
  · intro j j' e e' k k' h1 h2 h3; rw [hz j e h1] at h3; cases h3
  · intro _ j e h1 h2; rw [hz j e h1] at h2; exact absurd rfl h2
  · intro _ j j' e e' h1 h2 h3; rw [hz j e h1] at h3; exact absurd rfl h3

theorem entries_empty (n : Nat) : entries (List.replicate n (Entry.zero : Entry K V)) = [] := by
  induction n with
  | zero => rfl
  | succ n ih => rw [List.replicate_succ]; simp only [entries, List.filterMap_cons] at ih ⊢; rw [ih]; rfl

theorem used_empty (n : Nat) : used (List.replicate n (Entry.zero : Entry K V)) = 0 := by
  induction n with
  | zero => rfl
  | succ n ih => rw [List.replicate_succ]; simp only [used, List.countP_cons] at ih ⊢; rw [ih]; rfl

theorem resize_spec {F : Fns K} (L : Laws F) {t : Tbl K V} {m} (h : Rel F t m) (min : Nat) (hm : 2 * t.size ≤ min) :
    ∃ t', resize t min = .ok t' ∧ Rel F t' m ∧ used t'.table = (entries t'.table).length ∧ 2 * t'.size ≤ t'.table.length := by
  obtain ⟨k', h1, h2, h3⟩ := newSize_spec min 3 min (by
    have := @Nat.lt_two_pow_self min
    omega)
  have hlive : ∀ (e : Entry K V) (k : K), e ∈ t.table → e.key = .live k → e.hash = F.hash k ∧ ∃ v, e.value = some v := by
    intro e k he hk
    obtain ⟨j, hj, hje⟩ := List.mem_iff_getElem.1 he
    have := h.inv.live j e k (List.getElem?_eq_some_iff.2 ⟨hj, hje⟩) hk
    exact ⟨this.1, this.2.2⟩
  have hpow : 2 ^ 3 ≤ 2 ^ k' := Nat.pow_le_pow_right (by omega) h1
  obtain ⟨tb', g1, g2, g3, g4, g5⟩ := resizeInto_spec L t.table t.size (List.replicate (2 ^ k') .zero) (tinv_empty _)
    ⟨k', List.length_replicate⟩ (by rw [used_empty, entries_empty]; rfl) h.size
    (by rw [entries_empty, List.length_replicate, List.length_nil]; omega) hlive
    (by rw [entries_empty]; exact Distinct.perm L h.dist h.perm.symm)
  rw [entries_empty, List.nil_append] at g5
  rw [List.length_replicate] at g3
  refine ⟨⟨t.size, t.size, tb'⟩, ?_, ⟨g2, ⟨k', h1, g3⟩, ?_, ?_, ?_, g5.trans h.perm, h.dist⟩, g4, ?_⟩
  · unfold resize
    show (resizeInto t.size t.table (List.replicate (newSize min (2 ^ 3) min) .zero) >>= _) = _
    rw [h2, g1]; rfl
  · show t.size = _; rw [h.size, g5.length_eq]
  · show t.size = _; rw [h.size, ← g5.length_eq, ← g4]
  · show t.size < tb'.length; omega
  · show 2 * t.size ≤ tb'.length; omega

/-- What h_set_ext returns. -/
theorem setExt_spec {F : Fns K} (L : Laws F) {t : Tbl K V} {m} (h : Rel F t m) (k : K) :
    ∃ b j e t', setExt F t k = .ok (b, j, e, t') ∧
      (∀ v, Rel F { t' with table := t'.table.set j { e with key := .live k, value := some v } } ((k, v) :: mdel F.eq m k)) ∧
      (if b then mfind F.eq m k = none else Rel F t' m ∧ ∃ k' v', e.key = .live k' ∧ mfind F.eq m k = some (k', v')) := by
  obtain ⟨⟨j, e, t1⟩, hr, hl⟩ := lookup_spec L h k
  have hrel := hl.rel
  have hres := hl.res
  simp only at hrel hres
  unfold setExt
  rw [hr]
  simp only [Res.ok_bind]
  cases hk : e.key with
  | live k' =>
    simp only
    refine ⟨false, j, e, t1, rfl, fun v => ?_, ?_⟩
    · have := put_spec L hl v t1.size t1.fill (by simp only [hk]; rfl) (by simp [isUsed, hk]) hrel.room
      exact this
    · rcases hres with ⟨k1, v1, rest, h1, h2, h3, h4, h5⟩ | ⟨h1, _⟩
      · simp only [Bool.false_eq_true, if_false]
        exact ⟨hrel, k1, v1, h1, (mfind_present L hrel.dist h5 h3).1⟩
      · exact absurd hk (h1 k')
  | dummy =>
    simp only
    have habs : ∀ p ∈ m, F.eq p.1 k = false := by
      rcases hres with ⟨k1, v1, rest, h1, _⟩ | ⟨_, _, h3⟩
      · rw [hk] at h1; cases h1
      · exact h3
    refine ⟨true, j, e, _, rfl, fun v => ?_, (mfind_absent habs).1⟩
    exact put_spec L hl v (t1.size + 1) t1.fill (by simp only [hk]; rfl) (by simp [isUsed, hk]) hrel.room
  | null =>
    simp only
    have habs : ∀ p ∈ m, F.eq p.1 k = false := by
      rcases hres with ⟨k1, v1, rest, h1, _⟩ | ⟨_, _, h3⟩
      · rw [hk] at h1; cases h1
      · exact h3
    by_cases hbig : t1.fill * 3 > (t1.table.length - 1) * 2
    · rw [if_pos hbig]
      obtain ⟨t2, g1, g2, g3, g4⟩ := resize_spec L hrel (t1.size * if t1.size > slowDown then 4 else 2) (by split <;> omega)
      rw [g1]
      simp only [Res.ok_bind]
      obtain ⟨⟨j2, e2, t3⟩, hr2, hl2⟩ := lookup_spec L g2 k
      rw [hr2]
      simp only [Res.ok_bind]
      refine ⟨true, j2, e2, _, rfl, fun v => ?_, (mfind_absent habs).1⟩
      have hd : ∀ k', e2.key ≠ .live k' := by
        rcases hl2.res with ⟨k1, v1, rest, h1, _, h3, _, h5⟩ | ⟨h1, _⟩
        · have := habs (k1, v1) (h5.mem_iff.2 List.mem_cons_self)
          rw [h3] at this; cases this
        · exact h1
      have hnd : ¬ NN t2.table j2 := by
        rintro ⟨e4, q1, q2⟩
        have q3 := hl2.used.2 ⟨e4, q1, q2⟩
        obtain ⟨e5, q4, q5⟩ := q3
        have q6 := hl2.at_
        simp only at q4 q6
        rw [q6] at q4; cases q4
        have hu3 : used t3.table = (entries t3.table).length := by
          have r1 := hl2.rel.fill
          have r2 := hl2.rel.size
          have r3 := hl2.fill
          have r4 := hl2.size
          have r5 := g2.fill
          have r6 := g2.size
          simp only at r1 r2 r3 r4
          omega
        cases hk2 : e2.key with
        | null => exact q5 hk2
        | dummy => exact no_dummy hl2.rel.inv hu3 q6 hk2
        | live k' => exact hd k' hk2
      have hnull : e2.key = .null := by
        have := fun q => hnd (hl2.used.1 q)
        cases hk2 : e2.key with
        | null => rfl
        | dummy => exact absurd ⟨e2, hl2.at_, by simp only [hk2]; intro h; cases h⟩ this
        | live k' => exact absurd hk2 (hd k')
      refine put_spec L hl2 v (t3.size + 1) (t3.fill + 1) (by simp only [hnull]; rfl) (by simp [isUsed, hnull]) ?_
      have r1 := hl2.fill
      have r2 := hl2.len
      have r3 := g2.fill
      have r4 := g2.size
      have r5 := g2.pow
      obtain ⟨kk, r5, r6⟩ := r5
      have : 2 ^ 3 ≤ 2 ^ kk := Nat.pow_le_pow_right (by omega) r5
      simp only at r1 r2
      show t3.fill + 1 < t3.table.length
      omega
    · rw [if_neg hbig]
      simp only [Res.ok_bind]
      refine ⟨true, j, e, _, rfl, fun v => ?_, (mfind_absent habs).1⟩
      refine put_spec L hl v (t1.size + 1) (t1.fill + 1) (by simp only [hk]; rfl) (by simp [isUsed, hk]) ?_
      obtain ⟨kk, r5, r6⟩ := hrel.pow
      have : 2 ^ 3 ≤ 2 ^ kk := Nat.pow_le_pow_right (by omega) r5
      show t1.fill + 1 < t1.table.length
      omega

theorem rel_new {F : Fns K} : Rel F (new : Tbl K V) [] :=
  ⟨tinv_empty _, ⟨3, Nat.le_refl _, rfl⟩, rfl, rfl, (by show 0 < 8; omega), by rw [show (new : Tbl K V).table = List.replicate 8 .zero from rfl, entries_empty], List.Pairwise.nil⟩

theorem rel_clear {F : Fns K} {t : Tbl K V} {m} (h : Rel F t m) : Rel F (clear t) [] := by
  have hl : (clear t).table = List.replicate t.table.length .zero := rfl
  have hlen : (clear t).table.length = t.table.length := by rw [hl, List.length_replicate]
  refine ⟨tinv_empty _, ?_, ?_, ?_, ?_, ?_, List.Pairwise.nil⟩
  · rw [hlen]; exact h.pow
  · rw [hl, entries_empty]; rfl
  · rw [hl, used_empty]; rfl
  · rw [hlen]; have := h.room; show 0 < _; omega
  · rw [hl, entries_empty]

theorem doOp_spec {F : Fns K} (L : Laws F) {t : Tbl K V} {m} (h : Rel F t m) (op : HOp K V) :
    ∃ t', doOp F t op = .ok ((hstep F.eq F.same m op).1, t') ∧ Rel F t' (hstep F.eq F.same m op).2 := by
  cases op with
  | set k v =>
    obtain ⟨b, j, e, t', g1, g2, g3⟩ := setExt_spec L h k
    refine ⟨_, ?_, g2 v⟩
    simp only [doOp, set, g1, Res.ok_bind, hstep, mstatus]
    cases b with
    | true => simp only [if_true] at g3 ⊢; rw [g3]; rfl
    | false =>
      simp only [Bool.false_eq_true, if_false] at g3 ⊢
      obtain ⟨_, k', v', g4, g5⟩ := g3
      rw [g5, g4]
      simp only [status]
      cases F.same k' k <;> rfl
  | setSafe k v =>
    obtain ⟨b, j, e, t', g1, g2, g3⟩ := setExt_spec L h k
    simp only [doOp, setSafe, g1, Res.ok_bind, hstep]
    cases b with
    | true =>
      simp only [if_true] at g3 ⊢; rw [g3]
      have hd : mdel F.eq m k = m := by
        refine (mfind_absent (F := F) (fun p hp => ?_)).2
        have := List.find?_eq_none.1 g3 p hp
        simpa using this
      have g2 := g2 v
      rw [hd] at g2
      exact ⟨_, rfl, g2⟩
    | false =>
      simp only [Bool.false_eq_true, if_false] at g3 ⊢
      obtain ⟨g6, k', v', g4, g5⟩ := g3
      rw [g5]
      exact ⟨_, rfl, g6⟩
  | get k =>
    obtain ⟨⟨j, e, t1⟩, hr, hl⟩ := lookup_spec L h k
    refine ⟨t1, ?_, hl.rel⟩
    simp only [doOp, get, hr, Res.ok_bind, hstep]
    rcases hl.res with ⟨k1, v1, rest, h1, h2, h3, h4, h5⟩ | ⟨h1, h2, h3⟩
    · rw [(mfind_present L hl.rel.dist h5 h3).1]; simp only at h2; rw [h2]; rfl
    · rw [(mfind_absent h3).1]; simp only at h2; rw [h2]; rfl
  | has k =>
    obtain ⟨⟨j, e, t1⟩, hr, hl⟩ := lookup_spec L h k
    refine ⟨t1, ?_, hl.rel⟩
    simp only [doOp, hasKey, hr, Res.ok_bind, hstep, mstatus]
    rcases hl.res with ⟨k1, v1, rest, h1, h2, h3, h4, h5⟩ | ⟨h1, h2, h3⟩
    · rw [(mfind_present L hl.rel.dist h5 h3).1]; simp only at h1; rw [h1]
      simp only [status]
      cases F.same k1 k <;> rfl
    · rw [(mfind_absent h3).1]; simp only at h1
      cases hk : e.key with
      | null => rfl
      | dummy => rfl
      | live k' => exact absurd hk (h1 k')
  | del k =>
    obtain ⟨t', g1, g2⟩ := rem_spec L h k
    exact ⟨t', by simp only [doOp, g1, Res.ok_bind, hstep], g2⟩
  | rem k =>
    obtain ⟨t', g1, g2⟩ := rem_spec L h k
    exact ⟨t', by simp only [doOp, g1, Res.ok_bind, hstep], g2⟩
  | count => exact ⟨t, by simp only [doOp, hstep, h.size, h.perm.length_eq], h⟩
  | clear => exact ⟨clear t, rfl, rel_clear h⟩

theorem doOps_spec {F : Fns K} (L : Laws F) (ops : List (HOp K V)) : ∀ {t : Tbl K V} {m}, Rel F t m →
    ∃ t', doOps F t ops = .ok ((hrun F.eq F.same m ops).1, t') ∧ Rel F t' (hrun F.eq F.same m ops).2 := by
  induction ops with
  | nil => intro t m h; exact ⟨t, rfl, h⟩
  | cons op ops ih =>
    intro t m h
    obtain ⟨t1, g1, g2⟩ := doOp_spec L h op
    obtain ⟨t2, g3, g4⟩ := ih g2
    exact ⟨t2, by simp only [doOps, g1, g3, Res.ok_bind]; rfl, g4⟩

theorem eachLoop_spec : ∀ (tb : List (Entry K V)) (i : Nat), i = (entries tb).length →
    (∀ (e : Entry K V) (k : K), e ∈ tb → e.key = .live k → ∃ v, e.value = some v) →
    eachLoop i tb = .ok ((entries tb).map (fun p => (p.1, some p.2))) := by
  intro tb
  induction tb with
  | nil => intro i hi _; simp [entries] at hi; subst hi; rfl
  | cons e tb ih =>
    intro i hi hl
    have hl' : ∀ (e : Entry K V) (k : K), e ∈ tb → e.key = .live k → ∃ v, e.value = some v := fun e k h => hl e k (List.mem_cons_of_mem _ h)
    cases i with
    | zero =>
      have : entries (e :: tb) = [] := List.length_eq_zero_iff.1 hi.symm
      rw [this]; rfl
    | succ i =>
      by_cases hk : ∃ k, e.key = .live k
      · obtain ⟨k, hk⟩ := hk
        obtain ⟨v, hv⟩ := hl e k List.mem_cons_self hk
        have hE : entries (e :: tb) = (k, v) :: entries tb := by
          simp only [entries, List.filterMap_cons, ent_live hk hv]
        rw [hE] at hi ⊢
        simp only [List.length_cons] at hi
        simp only [eachLoop, hk, hv, List.map_cons]
        rw [ih i (by omega) hl']; rfl
      · have hdead : ∀ k, e.key ≠ .live k := fun k h => hk ⟨k, h⟩
        have hE : entries (e :: tb) = entries tb := by
          simp only [entries, List.filterMap_cons, ent_dead hdead]
        rw [hE] at hi ⊢
        have := ih (i + 1) hi hl'
        cases hs : e.key with
        | null => simp only [eachLoop, hs]; exact this
        | dummy => simp only [eachLoop, hs]; exact this
        | live k => exact absurd hs (hdead k)

theorem each_spec {F : Fns K} {t : Tbl K V} {m} (h : Rel F t m) :
    ∃ l : List (K × V), each t = .ok (l.map (fun p => (p.1, some p.2))) ∧ l.Perm m := by
  refine ⟨entries t.table, ?_, h.perm⟩
  refine eachLoop_spec t.table t.size h.size (fun e k he hk => ?_)
  obtain ⟨j, hj, hje⟩ := List.mem_iff_getElem.1 he
  exact (h.inv.live j e k (List.getElem?_eq_some_iff.2 ⟨hj, hje⟩) hk).2.2

end Ferret.Hash
