import Verif.Lemmas.Probe

/-!
Invariant of the hash table and the specification of its probe loops.
-/

namespace Ferret.Hash

variable {K V : Type}

/-- What the functions given to the table have to satisfy. -/
structure Laws (F : Fns K) : Prop where
  refl : ∀ a, F.eq a a = true
  symm : ∀ a b, F.eq a b = true → F.eq b a = true
  trans : ∀ a b c, F.eq a b = true → F.eq b c = true → F.eq a c = true
  hash : ∀ a b, F.eq a b = true → F.hash a = F.hash b
  same : ∀ a b, F.same a b = true → F.eq a b = true
  ptr : F.ptr = true → ∀ a b, F.hash a = F.hash b → F.eq a b = true

def NN (tb : List (Entry K V)) (i : Nat) : Prop := ∃ e, tb[i]? = some e ∧ e.key ≠ .null

def Reach (tb : List (Entry K V)) (h : UInt64) (j : Nat) : Prop :=
  ∃ n, slotN h tb.length n = j ∧ ∀ m, m < n → NN tb (slotN h tb.length m)

structure TInv (F : Fns K) (tb : List (Entry K V)) : Prop where
  live : ∀ (j : Nat) (e : Entry K V) (k : K), tb[j]? = some e → e.key = .live k → e.hash = F.hash k ∧ Reach tb (F.hash k) j ∧ ∃ v, e.value = some v
  dead : ∀ (j : Nat) (e : Entry K V), tb[j]? = some e → (∀ k, e.key ≠ .live k) → e.value = none
  uniq : ∀ (j j' : Nat) (e e' : Entry K V) (k k' : K), tb[j]? = some e → tb[j']? = some e' → e.key = .live k → e'.key = .live k' → F.eq k k' = true → j = j'
  ptrR : F.ptr = true → ∀ (j : Nat) (e : Entry K V), tb[j]? = some e → e.key ≠ .null → Reach tb e.hash j
  ptrU : F.ptr = true → ∀ (j j' : Nat) (e e' : Entry K V), tb[j]? = some e → tb[j']? = some e' → e.key ≠ .null → e'.key ≠ .null → e.hash = e'.hash → j = j'

theorem Reach.mono {tb tb' : List (Entry K V)} {h j} (hl : tb'.length = tb.length) (hn : ∀ i, NN tb i → NN tb' i)
    (hr : Reach tb h j) : Reach tb' h j := by
  obtain ⟨n, h1, h2⟩ := hr
  exact ⟨n, by rw [hl]; exact h1, fun m hm => by rw [hl]; exact hn _ (h2 m hm)⟩

theorem NN.set {tb : List (Entry K V)} {j : Nat} {e' : Entry K V}
    (h : e'.key ≠ .null ∨ ¬ NN tb j) (i : Nat) (hi : NN tb i) : NN (tb.set j e') i := by
  obtain ⟨e, h1, h2⟩ := hi
  by_cases hij : j = i
  · subst hij
    refine ⟨e', ?_, ?_⟩
    · have := List.getElem?_eq_some_iff.1 h1
      rw [List.getElem?_set]; simp only [if_true]
      rw [if_pos this.1]
    · cases h with
      | inl h => exact h
      | inr h => exact absurd ⟨e, h1, h2⟩ h
  · exact ⟨e, by rw [List.getElem?_set, if_neg hij]; exact h1, h2⟩

theorem TInv.set {F : Fns K} {tb : List (Entry K V)} (L : Laws F) (hI : TInv F tb) {j : Nat} {e' : Entry K V} (hj : j < tb.length)
    (hn : e'.key ≠ .null ∨ ¬ NN tb j)
    (hd : (∀ k, e'.key ≠ .live k) → e'.value = none)
    (hl : ∀ k, e'.key = .live k → e'.hash = F.hash k ∧ Reach tb (F.hash k) j ∧ (∃ v, e'.value = some v) ∧
      ∀ j' e'' k', j' ≠ j → tb[j']? = some e'' → e''.key = .live k' → F.eq k' k = false)
    (hp : F.ptr = true → e'.key ≠ .null → Reach tb e'.hash j ∧
      ∀ j' e'', j' ≠ j → tb[j']? = some e'' → e''.key ≠ .null → e''.hash ≠ e'.hash) : TInv F (tb.set j e') := by
  have hlen : (tb.set j e').length = tb.length := List.length_set
  have mono : ∀ h i, Reach tb h i → Reach (tb.set j e') h i := fun h i => Reach.mono hlen (NN.set hn)
  have cases' : ∀ i e, (tb.set j e')[i]? = some e → (i = j ∧ e = e') ∨ (i ≠ j ∧ tb[i]? = some e) := by
    intro i e h
    rw [List.getElem?_set] at h
    by_cases hij : j = i
    · subst hij
      rw [if_pos rfl, if_pos hj] at h
      exact .inl ⟨rfl, (Option.some.inj h).symm⟩
    · rw [if_neg hij] at h; exact .inr ⟨fun h => hij h.symm, h⟩
  refine ⟨?_, ?_, ?_, ?_, ?_⟩
  · intro i e k h1 h2
    rcases cases' i e h1 with ⟨rfl, rfl⟩ | ⟨_, h⟩
    · have := hl k h2; exact ⟨this.1, mono _ _ this.2.1, this.2.2.1⟩
    · have := hI.live i e k h h2; exact ⟨this.1, mono _ _ this.2.1, this.2.2⟩
  · intro i e h1 h2
    rcases cases' i e h1 with ⟨rfl, rfl⟩ | ⟨_, h⟩
    · exact hd h2
    · exact hI.dead i e h h2
  · intro i i' e1 e2 k1 k2 h1 h2 h3 h4 h5
    rcases cases' i e1 h1 with ⟨rfl, rfl⟩ | ⟨hi, h1'⟩ <;> rcases cases' i' e2 h2 with ⟨rfl, rfl⟩ | ⟨hi', h2'⟩
    · rfl
    · have := (hl k1 h3).2.2.2 i' e2 k2 hi' h2' h4
      rw [L.symm _ _ h5] at this; cases this
    · have := (hl k2 h4).2.2.2 i e1 k1 hi h1' h3
      rw [h5] at this; cases this
    · exact hI.uniq _ _ _ _ _ _ h1' h2' h3 h4 h5
  · intro hq i e h1 h2
    rcases cases' i e h1 with ⟨rfl, rfl⟩ | ⟨_, h⟩
    · exact mono _ _ (hp hq h2).1
    · exact mono _ _ (hI.ptrR hq i e h h2)
  · intro hq i i' e1 e2 h1 h2 h3 h4 h5
    rcases cases' i e1 h1 with ⟨rfl, rfl⟩ | ⟨hi, h1'⟩ <;> rcases cases' i' e2 h2 with ⟨rfl, rfl⟩ | ⟨hi', h2'⟩
    · rfl
    · exact absurd h5.symm ((hp hq h3).2 i' e2 hi' h2' h4)
    · exact absurd h5 ((hp hq h4).2 i e1 hi h1' h3)
    · exact hI.ptrU hq _ _ _ _ h1' h2' h3 h4 h5

/-- The result of a probe for `k`. -/
structure LookOK (F : Fns K) (tb : List (Entry K V)) (k : K) (f : Found) (e : Entry K V) : Prop where
  at_ : tb[f.idx]? = some e
  st : f.store = true ∨ e.hash = F.hash k
  res : (∃ k', e.key = .live k' ∧ F.eq k' k = true) ∨
    ((∀ k', e.key ≠ .live k') ∧ ∀ (j : Nat) (e' : Entry K V) (k' : K), tb[j]? = some e' → e'.key = .live k' → F.eq k' k = false)
  reach : Reach tb (F.hash k) f.idx
  ptr : F.ptr = true → ∀ (j : Nat) (e' : Entry K V), j ≠ f.idx → tb[j]? = some e' → e'.key ≠ .null → e'.hash ≠ F.hash k

theorem hit_live {F : Fns K} (L : Laws F) {tb : List (Entry K V)} (hI : TInv F tb) {j : Nat} {e : Entry K V} {k k' : K}
    (h1 : tb[j]? = some e) (h2 : e.key = .live k') : hit F e k = F.eq k' k := by
  have hh := (hI.live j e k' h1 h2).1
  unfold hit
  by_cases hp : F.ptr = true
  · rw [if_pos hp, hh]
    cases he : F.eq k' k with
    | true => rw [L.hash _ _ he]; simp
    | false =>
      simp only [beq_eq_false_iff_ne]
      intro hc
      rw [L.ptr hp _ _ hc] at he
      cases he
  · rw [if_neg hp, h2]
    simp only
    cases he : F.eq k' k with
    | true => rw [hh, L.hash _ _ he]; simp
    | false =>
      cases hs : F.same k' k with
      | true => rw [L.same _ _ hs] at he; cases he
      | false => simp

theorem hit_ptr {F : Fns K} {e : Entry K V} {k : K} (hp : F.ptr = true) : hit F e k = true ↔ e.hash = F.hash k := by
  unfold hit; rw [if_pos hp]; simp

theorem hit_dead {F : Fns K} {e : Entry K V} {k : K} (hd : ∀ k', e.key ≠ .live k') (h : hit F e k = true) : F.ptr = true := by
  unfold hit at h
  by_cases hp : F.ptr = true
  · exact hp
  · rw [if_neg hp] at h
    split at h
    · exact absurd ‹_› (hd _)
    · cases h

theorem lookupLoop_null {F : Fns K} {tb : List (Entry K V)} {k : K} {fuel i p free first} {e : Entry K V}
    (h1 : tb[i % tb.length]? = some e) (h2 : e.key = .null) :
    lookupLoop F tb k (fuel + 1) i p free first = .ok ⟨free.getD (i % tb.length), true⟩ := by
  simp only [lookupLoop, h1, h2]
  cases free <;> rfl

theorem lookupLoop_used {F : Fns K} {tb : List (Entry K V)} {k : K} {fuel i p free first} {e : Entry K V}
    (h1 : tb[i % tb.length]? = some e) (h2 : e.key ≠ .null) :
    lookupLoop F tb k (fuel + 1) i p free first = if hit F e k then .ok ⟨i % tb.length, first⟩
      else lookupLoop F tb k fuel (nextI i p) (shiftP p) (keepFree free e.key (i % tb.length)) false := by
  simp only [lookupLoop, h1]

theorem lookupLoop_spec {F : Fns K} (L : Laws F) {tb : List (Entry K V)} (hI : TInv F tb) (k : K) :
    ∀ fuel n free first, (∃ N, n ≤ N ∧ N < n + fuel ∧ ∃ e, tb[slotN (F.hash k) tb.length N]? = some e ∧ e.key = .null) →
    0 < tb.length →
    (∀ m, m < n → ∃ e, tb[slotN (F.hash k) tb.length m]? = some e ∧ e.key ≠ .null ∧ hit F e k = false) →
    (∀ f, free = some f → ∃ m e, m < n ∧ f = slotN (F.hash k) tb.length m ∧ tb[f]? = some e ∧ e.key = .dummy) →
    ∃ f e, lookupLoop F tb k fuel (seqI (F.hash k) tb.length n) (seqP (F.hash k) n) free first = .ok f ∧ LookOK F tb k f e := by
  intro fuel
  induction fuel with
  | zero => intro n free first ⟨N, h1, h2, _⟩; omega
  | succ fuel ih =>
    intro n free first hN hpos hprev hfree
    have hlt : slotN (F.hash k) tb.length n < tb.length := Nat.mod_lt _ hpos
    obtain ⟨e, he⟩ : ∃ e, tb[slotN (F.hash k) tb.length n]? = some e := ⟨_, List.getElem?_eq_some_iff.2 ⟨hlt, rfl⟩⟩
    have hnn : ∀ m, m < n → NN tb (slotN (F.hash k) tb.length m) := fun m hm => by
      obtain ⟨e, h1, h2, _⟩ := hprev m hm; exact ⟨e, h1, h2⟩
    by_cases hk : e.key = .null
    · have hstop : ∀ h j, h = F.hash k → Reach tb h j → (∃ m, m < n ∧ j = slotN (F.hash k) tb.length m) ∨ j = slotN (F.hash k) tb.length n := by
        intro h j hh hr
        obtain ⟨n', r1, r2⟩ := hr
        rw [hh] at r1 r2
        rcases Nat.lt_trichotomy n' n with h | h | h
        · exact .inl ⟨n', h, r1.symm⟩
        · subst h; exact .inr r1.symm
        · obtain ⟨e2, h3, h4⟩ := r2 n h
          rw [he] at h3; cases h3; exact absurd hk h4
      have habs : ∀ (j : Nat) (e' : Entry K V) (k' : K), tb[j]? = some e' → e'.key = .live k' → F.eq k' k = false := by
        intro j e' k' h1 h2
        cases hq : F.eq k' k with
        | false => rfl
        | true =>
          have hr := (hI.live j e' k' h1 h2).2.1
          rcases hstop _ j (L.hash _ _ hq) hr with ⟨m, hm, rfl⟩ | rfl
          · obtain ⟨e2, h3, h4, h5⟩ := hprev m hm
            rw [h1] at h3; cases h3
            rw [hit_live L hI h1 h2, hq] at h5; cases h5
          · rw [he] at h1; cases h1; rw [hk] at h2; cases h2
      have hpt : F.ptr = true → ∀ (j : Nat) (e' : Entry K V), tb[j]? = some e' → e'.key ≠ .null → e'.hash ≠ F.hash k := by
        intro hp j e' h1 h2 hc
        have hr := hI.ptrR hp j e' h1 h2
        rcases hstop _ j hc hr with ⟨m, hm, rfl⟩ | rfl
        · obtain ⟨e2, h3, h4, h5⟩ := hprev m hm
          rw [h1] at h3; cases h3
          rw [(hit_ptr hp).2 hc] at h5; cases h5
        · rw [he] at h1; cases h1; exact h2 hk
      have hloop := lookupLoop_null (F := F) (k := k) (fuel := fuel) (p := seqP (F.hash k) n) (free := free) (first := first) he hk
      cases free with
      | none =>
        exact ⟨⟨slotN (F.hash k) tb.length n, true⟩, e, hloop,
          he, .inl rfl, .inr ⟨fun k' h => by rw [hk] at h; (try cases h), habs⟩, ⟨n, rfl, hnn⟩, fun hp j e' _ => hpt hp j e'⟩
      | some f =>
        obtain ⟨m, e2, h1, h2, h3, h4⟩ := hfree f rfl
        exact ⟨⟨f, true⟩, e2, hloop,
          h3, .inl rfl, .inr ⟨fun k' h => by rw [h4] at h; (try cases h), habs⟩, ⟨m, h2.symm, fun m' hm' => hnn m' (by omega)⟩, fun hp j e' _ => hpt hp j e'⟩
    · have hloop := lookupLoop_used (F := F) (k := k) (fuel := fuel) (p := seqP (F.hash k) n) (free := free) (first := first) he hk
      cases hh : hit F e k with
      | true =>
        rw [hh] at hloop
        refine ⟨⟨slotN (F.hash k) tb.length n, first⟩, e, hloop, he, .inr ?_, ?_, ⟨n, rfl, hnn⟩, ?_⟩
        · cases hs : e.key with
          | null => exact absurd hs hk
          | dummy => exact (hit_ptr (hit_dead (fun k' h => by rw [hs] at h; cases h) hh)).1 hh
          | live k' =>
            rw [(hI.live _ e k' he hs).1]
            rw [hit_live L hI he hs] at hh
            exact L.hash _ _ hh
        · cases hs : e.key with
          | null => exact absurd hs hk
          | live k' =>
            rw [hit_live L hI he hs] at hh
            exact .inl ⟨k', rfl, hh⟩
          | dummy =>
            have hp := hit_dead (fun k' h => by rw [hs] at h; cases h) hh
            refine .inr ⟨fun k' h => (by cases h), fun j e' k' h1 h2 => ?_⟩
            cases hq : F.eq k' k with
            | false => rfl
            | true =>
              have h3 := (hI.live j e' k' h1 h2).1
              have := hI.ptrU hp j _ e' e h1 he (by rw [h2]; intro h; cases h) hk (by rw [h3, L.hash _ _ hq, (hit_ptr hp).1 hh])
              subst this
              rw [he] at h1; cases h1; rw [hs] at h2; cases h2
        · intro hp j e' hj h1 h2 h3
          exact hj (hI.ptrU hp j _ e' e h1 he h2 hk (by rw [h3, (hit_ptr hp).1 hh]))
      | false =>
        rw [hh] at hloop
        simp only [Bool.false_eq_true, if_false] at hloop
        have := ih (n + 1) (keepFree free e.key (slotN (F.hash k) tb.length n)) false ?_ hpos ?_ ?_
        · obtain ⟨f, e2, h1, h2⟩ := this
          exact ⟨f, e2, hloop.trans h1, h2⟩
        · obtain ⟨N, h1, h2, e2, h3, h4⟩ := hN
          refine ⟨N, ?_, by omega, e2, h3, h4⟩
          rcases Nat.lt_or_eq_of_le h1 with h | h
          · exact h
          · subst h; rw [he] at h3; cases h3; exact absurd h4 hk
        · intro m hm
          rcases Nat.lt_or_eq_of_le (Nat.lt_succ_iff.1 hm) with h | h
          · exact hprev m h
          · subst h; exact ⟨e, he, hk, hh⟩
        · intro f hf
          cases free with
          | some f' =>
            simp only [keepFree, Option.some.injEq] at hf
            subst hf
            obtain ⟨m, e2, h1, h2⟩ := hfree f' rfl
            exact ⟨m, e2, by omega, h2⟩
          | none =>
            cases hs : e.key with
            | null => exact absurd hs hk
            | live k' => rw [hs] at hf; simp [keepFree] at hf
            | dummy =>
              rw [hs] at hf; simp only [keepFree, Option.some.injEq] at hf
              exact ⟨n, e, by omega, hf.symm, hf ▸ he, hs⟩

/-- The table has a power of two slots, one of them empty. -/
def Room (tb : List (Entry K V)) : Prop :=
  (∃ k, tb.length = 2 ^ k) ∧ ∃ (j : Nat) (e : Entry K V), tb[j]? = some e ∧ e.key = .null

theorem lookupIdx_spec {F : Fns K} (L : Laws F) {tb : List (Entry K V)} (hI : TInv F tb) (hr : Room tb) (k : K) :
    ∃ f e, lookupIdx F tb k = .ok f ∧ LookOK F tb k f e := by
  obtain ⟨⟨kk, hlen⟩, j, e, hj, he⟩ := hr
  have hjl := (List.getElem?_eq_some_iff.1 hj).1
  obtain ⟨N, hN, hs⟩ := slotN_cover (F.hash k) kk j (by omega)
  refine lookupLoop_spec L hI k (probeFuel tb.length) 0 none true ⟨N, by omega, by simp only [probeFuel, hlen]; omega, e, ?_, he⟩ (by omega) (fun m hm => absurd hm (by omega)) (fun f hf => by cases hf)
  rw [hlen, hs]; exact hj

theorem resizeLoop_spec {tb : List (Entry K V)} (h : UInt64) :
    ∀ fuel n, (∃ N, n ≤ N ∧ N < n + fuel ∧ ∃ e, tb[slotN h tb.length N]? = some e ∧ e.key = .null) →
    0 < tb.length → (∀ m, m < n → NN tb (slotN h tb.length m)) →
    ∃ j e, resizeLoop tb fuel (seqI h tb.length n) (seqP h n) = .ok j ∧ tb[j]? = some e ∧ e.key = .null ∧ Reach tb h j := by
  intro fuel
  induction fuel with
  | zero => intro n ⟨N, h1, h2, _⟩; omega
  | succ fuel ih =>
    intro n hN hpos hnn
    have hlt : slotN h tb.length n < tb.length := Nat.mod_lt _ hpos
    obtain ⟨e, he⟩ : ∃ e, tb[slotN h tb.length n]? = some e := ⟨_, List.getElem?_eq_some_iff.2 ⟨hlt, rfl⟩⟩
    have he' : tb[seqI h tb.length n % tb.length]? = some e := he
    by_cases hk : e.key = .null
    · exact ⟨slotN h tb.length n, e, by simp only [resizeLoop, he', hk, slotN], he, hk, n, rfl, hnn⟩
    · have hstep : resizeLoop tb (fuel + 1) (seqI h tb.length n) (seqP h n) = resizeLoop tb fuel (seqI h tb.length (n + 1)) (seqP h (n + 1)) := by
        simp only [resizeLoop, he']
        cases hs : e.key with
        | null => exact absurd hs hk
        | dummy => rfl
        | live k' => rfl
      rw [hstep]
      refine ih (n + 1) ?_ hpos ?_
      · obtain ⟨N, h1, h2, e2, h3, h4⟩ := hN
        refine ⟨N, ?_, by omega, e2, h3, h4⟩
        rcases Nat.lt_or_eq_of_le h1 with h | h
        · exact h
        · subst h; rw [he] at h3; cases h3; exact absurd h4 hk
      · intro m hm
        rcases Nat.lt_or_eq_of_le (Nat.lt_succ_iff.1 hm) with h | h
        · exact hnn m h
        · subst h; exact ⟨e, he, hk⟩

theorem resizeLookup_spec {tb : List (Entry K V)} (hr : Room tb) (h : UInt64) :
    ∃ j e, resizeLookup tb h = .ok j ∧ tb[j]? = some e ∧ e.key = .null ∧ Reach tb h j := by
  obtain ⟨⟨kk, hlen⟩, j, e, hj, he⟩ := hr
  have hjl := (List.getElem?_eq_some_iff.1 hj).1
  obtain ⟨N, hN, hs⟩ := slotN_cover h kk j (by omega)
  refine resizeLoop_spec h (probeFuel tb.length) 0 ⟨N, by omega, by simp only [probeFuel, hlen]; omega, e, ?_, he⟩ (by omega) (fun m hm => absurd hm (by omega))
  rw [hlen, hs]; exact hj

end Ferret.Hash
