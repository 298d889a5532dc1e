import Verif.Lemmas.Hash

/-!
The operations of the hash table refine those of a map.
-/

namespace Ferret.Hash
open Ferret.Spec

variable {K V : Type}

def ent (e : Entry K V) : Option (K × V) :=
  match e.key, e.value with
  | .live k, some v => some (k, v)
  | _, _ => none

def entries (tb : List (Entry K V)) : List (K × V) := tb.filterMap ent

def isUsed (e : Entry K V) : Bool := match e.key with | .null => false | _ => true

def used (tb : List (Entry K V)) : Nat := tb.countP isUsed

theorem isUsed_iff {e : Entry K V} : isUsed e = true ↔ e.key ≠ .null := by
  unfold isUsed; split <;> simp_all

theorem ent_live {e : Entry K V} {k : K} {v : V} (h : e.key = .live k) (hv : e.value = some v) : ent e = some (k, v) := by
  simp only [ent, h, hv]

theorem ent_dead {e : Entry K V} (h : ∀ k, e.key ≠ .live k) : ent e = none := by
  unfold ent; split
  · rename_i k v h1 _; exact absurd h1 (h k)
  · rfl

theorem ent_some {e : Entry K V} {p : K × V} (h : ent e = some p) : e.key = .live p.1 ∧ e.value = some p.2 := by
  unfold ent at h; split at h
  · rename_i k v h1 h2; cases h; exact ⟨h1, h2⟩
  · cases h

theorem set_split {α : Type} {l : List α} {j : Nat} {e : α} (h : l[j]? = some e) (e' : α) :
    ∃ A B, l = A ++ e :: B ∧ l.set j e' = A ++ e' :: B := by
  obtain ⟨hj, he⟩ := List.getElem?_eq_some_iff.1 h
  refine ⟨l.take j, l.drop (j + 1), ?_, ?_⟩
  · rw [← he, List.getElem_cons_drop]; exact (List.take_append_drop j l).symm
  · rw [List.set_eq_take_append_cons_drop, if_pos hj]

theorem entries_set {tb : List (Entry K V)} {j : Nat} {e : Entry K V} (h : tb[j]? = some e) :
    ∃ rest, (entries tb).Perm ((ent e).toList ++ rest) ∧ ∀ e', (entries (tb.set j e')).Perm ((ent e').toList ++ rest) := by
  obtain ⟨hj, he⟩ := List.getElem?_eq_some_iff.1 h
  have key : ∀ (A B : List (Entry K V)) x, (entries (A ++ x :: B)).Perm ((ent x).toList ++ (entries A ++ entries B)) := by
    intro A B x
    simp only [entries, List.filterMap_append, List.filterMap_cons]
    cases ent x with
    | none => simp
    | some p => simp only [Option.toList, List.cons_append, List.nil_append]; exact List.perm_middle
  refine ⟨entries (tb.take j) ++ entries (tb.drop (j + 1)), ?_, fun e' => ?_⟩
  · have := key (tb.take j) (tb.drop (j + 1)) e
    rwa [← he, List.getElem_cons_drop, List.take_append_drop, he] at this
  · rw [List.set_eq_take_append_cons_drop, if_pos hj]; exact key _ _ _

theorem used_set {tb : List (Entry K V)} {j : Nat} {e : Entry K V} (h : tb[j]? = some e) (e' : Entry K V) :
    used (tb.set j e') + (if isUsed e then 1 else 0) = used tb + (if isUsed e' then 1 else 0) := by
  obtain ⟨A, B, h1, h2⟩ := set_split h e'
  rw [h2, h1]
  simp only [used, List.countP_append, List.countP_cons]
  omega

/-- `m` lists pairwise different keys. -/
def Distinct (F : Fns K) (m : List (K × V)) : Prop := m.Pairwise (fun p q => F.eq p.1 q.1 = false)

theorem Distinct.perm {F : Fns K} (L : Laws F) {m m' : List (K × V)} (h : Distinct F m) (hp : m.Perm m') : Distinct F m' := by
  refine hp.pairwise h ?_
  intro x y hxy
  cases hc : F.eq y.1 x.1 with
  | false => rfl
  | true => rw [L.symm _ _ hc] at hxy; cases hxy

theorem Distinct.sub {F : Fns K} {m m' : List (K × V)} (h : Distinct F m) (hs : m'.Sublist m) : Distinct F m' := List.Pairwise.sublist hs h

theorem eq_cong {F : Fns K} (L : Laws F) {a b c : K} (h : F.eq a b = true) : F.eq a c = F.eq b c := by
  cases h1 : F.eq a c with
  | true => exact (L.trans _ _ _ (L.symm _ _ h) h1).symm
  | false =>
    cases h2 : F.eq b c with
    | false => rfl
    | true => rw [L.trans _ _ _ h h2] at h1; cases h1

theorem eq_comm' {F : Fns K} (L : Laws F) (a b : K) : F.eq a b = F.eq b a := by
  cases h1 : F.eq a b with
  | true => exact (L.symm _ _ h1).symm
  | false =>
    cases h2 : F.eq b a with
    | false => rfl
    | true => rw [L.symm _ _ h2] at h1; cases h1

theorem mfind_present {F : Fns K} (L : Laws F) {m rest : List (K × V)} {p : K × V} {k : K} (hd : Distinct F m) (hp : m.Perm (p :: rest))
    (hk : F.eq p.1 k = true) : mfind F.eq m k = some p ∧ (mdel F.eq m k).Perm rest := by
  have hd' := Distinct.perm L hd hp
  have hrest : ∀ q ∈ rest, F.eq q.1 k = false := by
    intro q hq
    have := (List.pairwise_cons.1 hd').1 q hq
    rw [eq_cong L hk, eq_comm' L] at this
    exact this
  constructor
  · unfold mfind
    cases hf : m.find? (fun p => F.eq p.1 k) with
    | none =>
      have := List.find?_eq_none.1 hf p (hp.mem_iff.2 (List.mem_cons_self))
      rw [hk] at this; exact absurd rfl this
    | some q =>
      have h1 := List.find?_some hf
      have h2 := hp.mem_iff.1 (List.mem_of_find?_eq_some hf)
      rcases List.mem_cons.1 h2 with h2 | h2
      · rw [h2]
      · rw [hrest q h2] at h1; cases h1
  · unfold mdel
    refine (hp.filter _).trans ?_
    rw [List.filter_cons]
    simp only [hk, Bool.not_true, Bool.false_eq_true, if_false]
    rw [List.filter_eq_self.2]
    intro q hq
    rw [hrest q hq]; rfl

theorem mfind_absent {F : Fns K} {m : List (K × V)} {k : K} (h : ∀ p ∈ m, F.eq p.1 k = false) :
    mfind F.eq m k = none ∧ mdel F.eq m k = m := by
  constructor
  · exact List.find?_eq_none.2 (fun p hp => by rw [h p hp]; simp)
  · exact List.filter_eq_self.2 (fun p hp => by rw [h p hp]; rfl)

/-- The table, its counters and the map they stand for. -/
structure Rel (F : Fns K) (t : Tbl K V) (m : List (K × V)) : Prop where
  inv : TInv F t.table
  pow : ∃ k, 3 ≤ k ∧ t.table.length = 2 ^ k
  size : t.size = (entries t.table).length
  fill : t.fill = used t.table
  room : t.fill < t.table.length
  perm : (entries t.table).Perm m
  dist : Distinct F m

theorem room_of {tb : List (Entry K V)} (hp : ∃ k, tb.length = 2 ^ k) (h : used tb < tb.length) : Room tb := by
  refine ⟨hp, ?_⟩
  have : ∃ e ∈ tb, isUsed e = false := by
    refine Classical.byContradiction fun hc => ?_
    have := List.countP_eq_length (p := isUsed) (l := tb)
    have h2 := this.2 (fun e he => by
      cases hu : isUsed e with
      | true => rfl
      | false => exact absurd ⟨e, he, hu⟩ hc)
    unfold used at h; omega
  obtain ⟨e, he, hu⟩ := this
  obtain ⟨j, hj, hje⟩ := List.mem_iff_getElem.1 he
  refine ⟨j, e, List.getElem?_eq_some_iff.2 ⟨hj, hje⟩, ?_⟩
  cases hk : e.key with
  | null => rfl
  | dummy => simp [isUsed, hk] at hu
  | live k => simp [isUsed, hk] at hu

theorem Rel.room' {F : Fns K} {t : Tbl K V} {m} (h : Rel F t m) : Room t.table :=
  room_of (by obtain ⟨k, _, h⟩ := h.pow; exact ⟨k, h⟩) (by rw [← h.fill]; exact h.room)

theorem mem_entries {tb : List (Entry K V)} {p : K × V} : p ∈ entries tb ↔ ∃ (j : Nat) (e : Entry K V), tb[j]? = some e ∧ ent e = some p := by
  unfold entries
  rw [List.mem_filterMap]
  constructor
  · rintro ⟨e, he, hp⟩
    obtain ⟨j, hj, hje⟩ := List.mem_iff_getElem.1 he
    exact ⟨j, e, List.getElem?_eq_some_iff.2 ⟨hj, hje⟩, hp⟩
  · rintro ⟨j, e, h, hp⟩
    exact ⟨e, List.mem_of_getElem? h, hp⟩

/-- What `lookup` returns. -/
structure Looked (F : Fns K) (t : Tbl K V) (m : List (K × V)) (k : K) (r : Nat × Entry K V × Tbl K V) : Prop where
  rel : Rel F r.2.2 m
  at_ : r.2.2.table[r.1]? = some r.2.1
  hash : r.2.1.hash = F.hash k
  reach : Reach r.2.2.table (F.hash k) r.1
  ptr : F.ptr = true → ∀ (j : Nat) (e' : Entry K V), j ≠ r.1 → r.2.2.table[j]? = some e' → e'.key ≠ .null → e'.hash ≠ F.hash k
  res : (∃ k' v rest, r.2.1.key = .live k' ∧ r.2.1.value = some v ∧ F.eq k' k = true ∧ (entries r.2.2.table).Perm ((k', v) :: rest) ∧
      m.Perm ((k', v) :: rest)) ∨
    ((∀ k', r.2.1.key ≠ .live k') ∧ r.2.1.value = none ∧ ∀ p ∈ m, F.eq p.1 k = false)
  others : ∀ (j : Nat) (e' : Entry K V) (k' : K), j ≠ r.1 → r.2.2.table[j]? = some e' → e'.key = .live k' → F.eq k' k = false
  size : r.2.2.size = t.size
  fill : r.2.2.fill = t.fill
  len : r.2.2.table.length = t.table.length
  used : NN r.2.2.table r.1 ↔ NN t.table r.1

theorem lookup_spec {F : Fns K} (L : Laws F) {t : Tbl K V} {m} (h : Rel F t m) (k : K) :
    ∃ r, lookup F t k = .ok r ∧ Looked F t m k r := by
  obtain ⟨f, e, hf, hl⟩ := lookupIdx_spec L h.inv h.room' k
  have hj := (List.getElem?_eq_some_iff.1 hl.at_).1
  generalize hE : (if f.store then { e with hash := F.hash k } else e) = e'
  have hkey : e'.key = e.key := by rw [← hE]; split <;> rfl
  have hval : e'.value = e.value := by rw [← hE]; split <;> rfl
  have hhash : e'.hash = F.hash k := by
    rw [← hE]; split
    · rfl
    · rename_i hs; rcases hl.st with h | h
      · exact absurd h hs
      · exact h
  have hent : ent e' = ent e := by simp only [ent, hkey, hval]
  have hothers : ∀ (j : Nat) (e'' : Entry K V) (k' : K), j ≠ f.idx → t.table[j]? = some e'' → e''.key = .live k' → F.eq k' k = false := by
    intro j e'' k' hj h1 h2
    rcases hl.res with ⟨k1, h3, h4⟩ | ⟨_, h3⟩
    · cases hc : F.eq k' k with
      | false => rfl
      | true => exact absurd (h.inv.uniq _ _ _ _ _ _ h1 hl.at_ h2 h3 (L.trans _ _ _ hc (L.symm _ _ h4))) hj
    · exact h3 j e'' k' h1 h2
  have hI' : TInv F (t.table.set f.idx e') := by
    refine h.inv.set L hj ?_ ?_ ?_ ?_
    · by_cases hn : e.key = .null
      · right; rintro ⟨e2, h1, h2⟩; rw [hl.at_] at h1; cases h1; exact h2 hn
      · left; rw [hkey]; exact hn
    · rw [hkey, hval]; exact h.inv.dead _ _ hl.at_
    · intro k1 hk1
      rw [hkey] at hk1
      have := h.inv.live _ _ _ hl.at_ hk1
      have heq : F.eq k1 k = true := by
        rcases hl.res with ⟨k2, h3, h4⟩ | ⟨h3, _⟩
        · rw [hk1] at h3; cases h3; exact h4
        · exact absurd hk1 (h3 k1)
      refine ⟨by rw [hhash, L.hash _ _ heq], this.2.1, by rw [hval]; exact this.2.2, ?_⟩
      intro j' e'' k' hj' h1 h2
      rw [eq_comm' L, eq_cong L heq, eq_comm' L]
      exact hothers j' e'' k' hj' h1 h2
    · intro hp hn
      rw [hhash]
      exact ⟨hl.reach, fun j' e'' h1 h2 h3 => hl.ptr hp j' e'' h1 h2 h3⟩
  have hlen : (t.table.set f.idx e').length = t.table.length := List.length_set
  have hperm : (entries (t.table.set f.idx e')).Perm (entries t.table) := by
    obtain ⟨rest, h1, h2⟩ := entries_set hl.at_
    refine (h2 e').trans ?_
    rw [hent]; exact h1.symm
  have hused : used (t.table.set f.idx e') = used t.table := by
    have := used_set hl.at_ e'
    have hu : isUsed e' = isUsed e := by simp only [isUsed, hkey]
    rw [hu] at this; omega
  have hget : (t.table.set f.idx e')[f.idx]? = some e' := by
    rw [List.getElem?_set]; simp [hj]
  have hNN : ∀ i, NN t.table i → NN (t.table.set f.idx e') i := by
    intro i
    by_cases hn : e.key = .null
    · exact NN.set (.inr (by rintro ⟨e2, h1, h2⟩; rw [hl.at_] at h1; cases h1; exact h2 hn)) i
    · exact NN.set (.inl (by rw [hkey]; exact hn)) i
  refine ⟨(f.idx, e', { t with table := t.table.set f.idx e' }), ?_, ?_⟩
  · unfold lookup
    rw [hf]
    show (match t.table[f.idx]? with | none => _ | some e => _) = _
    rw [hl.at_]
    simp only [hE]
  · refine ⟨⟨hI', ?_, ?_, ?_, ?_, hperm.trans h.perm, h.dist⟩, hget, hhash, ?_, ?_, ?_, ?_, rfl, rfl, hlen, ?_⟩
    · obtain ⟨k, h1, h2⟩ := h.pow; exact ⟨k, h1, by rw [← h2]; exact hlen⟩
    · exact h.size.trans hperm.length_eq.symm
    · exact h.fill.trans hused.symm
    · show t.fill < (t.table.set f.idx e').length
      rw [hlen]; exact h.room
    · exact Reach.mono hlen hNN hl.reach
    · intro hp j e'' hj' h1 h2
      have h1 : (t.table.set f.idx e')[j]? = some e'' := h1
      rw [List.getElem?_set, if_neg (fun h => hj' h.symm)] at h1
      exact hl.ptr hp j e'' hj' h1 h2
    · rcases hl.res with ⟨k', h3, h4⟩ | ⟨h3, h4⟩
      · left
        obtain ⟨_, _, v, hv⟩ := h.inv.live _ _ _ hl.at_ h3
        obtain ⟨rest, h5, h6⟩ := entries_set hl.at_
        rw [ent_live h3 hv] at h5
        exact ⟨k', v, rest, by rw [hkey]; exact h3, by rw [hval]; exact hv, h4, hperm.trans h5, h.perm.symm.trans h5⟩
      · right
        refine ⟨fun k' => by rw [hkey]; exact h3 k', by rw [hval]; exact h.inv.dead _ _ hl.at_ h3, ?_⟩
        intro p hp
        obtain ⟨j, e2, h5, h6⟩ := mem_entries.1 (h.perm.mem_iff.2 hp)
        exact h4 j e2 p.1 h5 (ent_some h6).1
    · intro j e'' k' hj' h1 h2
      have h1 : (t.table.set f.idx e')[j]? = some e'' := h1
      rw [List.getElem?_set, if_neg (fun h => hj' h.symm)] at h1
      exact hothers j e'' k' hj' h1 h2
    · constructor
      · rintro ⟨e2, h1, h2⟩
        have h1 : (t.table.set f.idx e')[f.idx]? = some e2 := h1
        rw [hget] at h1; cases h1
        exact ⟨e, hl.at_, by rw [← hkey]; exact h2⟩
      · exact hNN _

/-- Filling in the slot found. -/
theorem put_spec {F : Fns K} (L : Laws F) {t : Tbl K V} {m k r} (h : Looked F t m k r) (v : V) (size fill : Nat)
    (hs : size = if (match r.2.1.key with | .live _ => true | _ => false) then r.2.2.size else r.2.2.size + 1)
    (hf : fill = if isUsed r.2.1 then r.2.2.fill else r.2.2.fill + 1) (hroom : fill < r.2.2.table.length) :
    Rel F ⟨fill, size, r.2.2.table.set r.1 { r.2.1 with key := .live k, value := some v }⟩ ((k, v) :: mdel F.eq m k) := by
  obtain ⟨j, e, t⟩ := r
  obtain ⟨hrel, hat, hhash, hreach, hptr, hres, hoth, _, _, _, _⟩ := h
  simp only at *
  have hj := (List.getElem?_eq_some_iff.1 hat).1
  generalize hE : ({ e with key := .live k, value := some v } : Entry K V) = e' at *
  have hkey : e'.key = .live k := by rw [← hE]
  have hval : e'.value = some v := by rw [← hE]
  have hh : e'.hash = F.hash k := by rw [← hE]; exact hhash
  obtain ⟨rest, hp1, hp2⟩ := entries_set hat
  have hp3 := hp2 e'
  rw [ent_live hkey hval] at hp3
  have hrest : (mdel F.eq m k).Perm rest ∧ (match e.key with | .live _ => true | _ => false) = (ent e).isSome := by
    rcases hres with ⟨k', v', rest', h1, h2, h3, h4, h5⟩ | ⟨h1, h2, h3⟩
    · rw [ent_live h1 h2] at hp1
      refine ⟨(mfind_present L hrel.dist (hrel.perm.symm.trans hp1) h3).2, ?_⟩
      rw [h1, ent_live h1 h2]; rfl
    · rw [ent_dead h1] at hp1
      rw [(mfind_absent h3).2, ent_dead h1]
      refine ⟨hrel.perm.symm.trans hp1, ?_⟩
      cases hk : e.key with
      | null => rfl
      | dummy => rfl
      | live k' => exact absurd hk (h1 k')
  have hperm : (entries (t.table.set j e')).Perm ((k, v) :: mdel F.eq m k) :=
    hp3.trans (List.Perm.cons _ hrest.1.symm)
  refine ⟨?_, ?_, ?_, ?_, ?_, hperm, ?_⟩
  · refine hrel.inv.set L hj (.inl (by rw [hkey]; intro h; cases h)) (fun h => absurd hkey (h k)) ?_ ?_
    · intro k' hk'
      rw [hkey] at hk'; cases hk'
      exact ⟨hh, hreach, ⟨v, hval⟩, hoth⟩
    · intro hp _
      rw [hh]; exact ⟨hreach, hptr hp⟩
  · obtain ⟨kk, h1, h2⟩ := hrel.pow; exact ⟨kk, h1, by rw [← h2]; exact List.length_set⟩
  · have h1 := hp3.length_eq
    have h2 := hp1.length_eq
    rw [hs, hrel.size, hrest.2]
    show _ = (entries (t.table.set j e')).length
    cases hx : ent e with
    | none => rw [hx] at h2; simp at h1 h2 ⊢; omega
    | some p => rw [hx] at h2; simp at h1 h2 ⊢; omega
  · have := used_set hat e'
    have hu : isUsed e' = true := isUsed_iff.2 (by rw [hkey]; intro h; cases h)
    rw [hu] at this
    rw [hf, hrel.fill]
    show _ = used (t.table.set j e')
    cases hx : isUsed e with
    | true => simp [hx] at this ⊢; omega
    | false => simp [hx] at this ⊢; omega
  · show fill < (t.table.set j e').length
    rw [List.length_set]; exact hroom
  · refine List.pairwise_cons.2 ⟨?_, Distinct.sub hrel.dist List.filter_sublist⟩
    intro q hq
    have := (List.mem_filter.1 hq).2
    rw [eq_comm' L]
    simpa using this

theorem rem_spec {F : Fns K} (L : Laws F) {t : Tbl K V} {m} (h : Rel F t m) (k : K) :
    ∃ t', rem F t k = .ok ((mfind F.eq m k).map (·.2), (mfind F.eq m k).isSome, t') ∧ Rel F t' (mdel F.eq m k) := by
  obtain ⟨⟨j, e, t1⟩, hr, hl⟩ := lookup_spec L h k
  obtain ⟨hrel, hat, hhash, hreach, hptr, hres, hoth, _, _, _, _⟩ := hl
  simp only at *
  have hj := (List.getElem?_eq_some_iff.1 hat).1
  unfold rem
  rw [hr]
  simp only [Res.ok_bind]
  rcases hres with ⟨k', v', rest', h1, h2, h3, h4, h5⟩ | ⟨h1, h2, h3⟩
  · rw [(mfind_present L hrel.dist h5 h3).1]
    obtain ⟨rest, hp1, hp2⟩ := entries_set hat
    rw [ent_live h1 h2] at hp1
    have hsz : t1.size ≠ 0 := by rw [hrel.size, hp1.length_eq]; simp
    rw [h1]
    simp only [hsz, if_false]
    refine ⟨_, by rw [h2]; rfl, ?_⟩
    generalize hE : ({ e with key := .dummy, value := none } : Entry K V) = e'
    have hkey : e'.key = .dummy := by rw [← hE]
    have hval : e'.value = none := by rw [← hE]
    have hh : e'.hash = F.hash k := by rw [← hE]; exact hhash
    have hp3 := hp2 e'
    rw [ent_dead (fun k h => by rw [hkey] at h; cases h)] at hp3
    refine ⟨?_, ?_, ?_, ?_, ?_, ?_, Distinct.sub hrel.dist List.filter_sublist⟩
    · refine hrel.inv.set L hj (.inl (by rw [hkey]; intro h; cases h)) (fun _ => hval) ?_ ?_
      · intro k' hk'
        rw [hkey] at hk'; cases hk'
      · intro hp _
        rw [hh]; exact ⟨hreach, hptr hp⟩
    · obtain ⟨kk, h1, h2⟩ := hrel.pow; exact ⟨kk, h1, by rw [← h2]; exact List.length_set⟩
    · show t1.size - 1 = (entries (t1.table.set j e')).length
      rw [hp3.length_eq, hrel.size, hp1.length_eq]; simp
    · show t1.fill = used (t1.table.set j e')
      have := used_set hat e'
      have hu : isUsed e' = true := isUsed_iff.2 (by rw [hkey]; intro h; cases h)
      have hu2 : isUsed e = true := isUsed_iff.2 (by rw [h1]; intro h; cases h)
      rw [hu, hu2] at this
      rw [hrel.fill]; simp at this; omega
    · show t1.fill < (t1.table.set j e').length
      rw [List.length_set]; exact hrel.room
    · exact hp3.trans (mfind_present L hrel.dist (hrel.perm.symm.trans hp1) h3).2.symm
  · rw [(mfind_absent h3).1, (mfind_absent h3).2]
    refine ⟨t1, ?_, hrel⟩
    cases hk : e.key with
    | null => rfl
    | dummy => rfl
    | live k' => exact absurd hk (h1 k')

end Ferret.Hash
