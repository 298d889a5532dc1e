import Verif.Model.HashSet
import Verif.Lemmas.HashRun

/-!
The linked list and the table of a hash set agree.
-/

namespace Ferret.HashSet
open Ferret.Hash (Fns Tbl Status Laws Rel Distinct)
open Ferret.Spec

variable {K : Type}

abbrev Cell (K : Type) := K × Nat

/-- The pointer to the first cell, or `n`. -/
def hd (l : List (Cell K)) (n : Option Nat) : Option Nat := match l with | [] => n | c :: _ => some c.2

/-- The pointer to the last cell, or `p`. -/
def lst : List (Cell K) → Option Nat → Option Nat
  | [], p => p
  | c :: cs, _ => lst cs (some c.2)

/-- A linked segment from `p` (excluded) to `n` (excluded). -/
def seg (h : List (Option (Node K))) : Option Nat → List (Cell K) → Option Nat → Prop
  | _, [], _ => True
  | p, c :: cs, n => h[c.2]? = some (some ⟨c.1, p, hd cs n⟩) ∧ seg h (some c.2) cs n

theorem hd_append (A B : List (Cell K)) (n) : hd (A ++ B) n = hd A (hd B n) := by cases A <;> rfl

theorem lst_append (A B : List (Cell K)) : ∀ p, lst (A ++ B) p = lst B (lst A p) := by
  induction A with
  | nil => intro p; rfl
  | cons c A ih => intro p; exact ih _

theorem seg_append {h : List (Option (Node K))} (A B : List (Cell K)) : ∀ p n,
    seg h p (A ++ B) n ↔ seg h p A (hd B n) ∧ seg h (lst A p) B n := by
  induction A with
  | nil => intro p n; simp [seg, lst]
  | cons c A ih => intro p n; simp only [List.cons_append, seg, ih, lst, hd_append, and_assoc]

theorem seg_frame {h : List (Option (Node K))} {i : Nat} {x} : ∀ (A : List (Cell K)) p n, (∀ c ∈ A, c.2 ≠ i) →
    (seg (h.set i x) p A n ↔ seg h p A n) := by
  intro A
  induction A with
  | nil => intro p n _; exact Iff.rfl
  | cons c A ih =>
    intro p n hi
    simp only [seg]
    rw [ih _ _ (fun d hd => hi d (List.mem_cons_of_mem _ hd)), List.getElem?_set_ne (fun e => hi c List.mem_cons_self e.symm)]

theorem seg_grow {h : List (Option (Node K))} {x} : ∀ (A : List (Cell K)) p n, seg h p A n → seg (h ++ [x]) p A n := by
  intro A
  induction A with
  | nil => intro p n _; trivial
  | cons c A ih =>
    intro p n hs
    refine ⟨?_, ih _ _ hs.2⟩
    have := (List.getElem?_eq_some_iff.1 hs.1).1
    rw [List.getElem?_append_left this]; exact hs.1

theorem seg_lt {h : List (Option (Node K))} : ∀ (A : List (Cell K)) p n, seg h p A n → ∀ c ∈ A, c.2 < h.length := by
  intro A
  induction A with
  | nil => intro p n _ c hc; cases hc
  | cons a A ih =>
    intro p n hs c hc
    rcases List.mem_cons.1 hc with rfl | hc
    · exact (List.getElem?_eq_some_iff.1 hs.1).1
    · exact ih _ _ hs.2 c hc

def ids (l : List (Cell K)) : List Nat := l.map (·.2)

theorem deref_some {h : List (Option (Node K))} {p : Nat} {n : Node K} (hp : h[p]? = some (some n)) : deref h (some p) = .ok (p, n) := by
  simp only [deref, hp]

/-- Change the pointer at the end of a segment. -/
theorem setNext_spec {h : List (Option (Node K))} {A : List (Cell K)} {c : Cell K} {p n} (hs : seg h p (A ++ [c]) n)
    (hnd : (ids (A ++ [c])).Nodup) (q : Option Nat) :
    ∃ x, setNext h (lst (A ++ [c]) p) q = .ok (h.set c.2 x) ∧ seg (h.set c.2 x) p (A ++ [c]) q := by
  have hlst : lst (A ++ [c]) p = some c.2 := by rw [lst_append]; rfl
  rw [seg_append] at hs
  obtain ⟨h1, h2, _⟩ := hs
  simp only [hd] at h2
  have hlt := (List.getElem?_eq_some_iff.1 h2).1
  refine ⟨some ⟨c.1, lst A p, q⟩, ?_, ?_⟩
  · unfold setNext; rw [hlst, deref_some h2]; rfl
  · rw [seg_append]
    refine ⟨(seg_frame A _ _ ?_).2 h1, ?_, trivial⟩
    · intro d hd he
      rw [ids, List.map_append, List.nodup_append] at hnd
      exact hnd.2.2 d.2 (List.mem_map_of_mem hd) c.2 (by simp) he
    · rw [List.getElem?_set_self hlt]; rfl

/-- Change the pointer at the start of a segment. -/
theorem setPrev_spec {h : List (Option (Node K))} {B : List (Cell K)} {c : Cell K} {p n} (hs : seg h p (c :: B) n)
    (hnd : (ids (c :: B)).Nodup) (q : Option Nat) :
    ∃ x, setPrev h (some c.2) q = .ok (h.set c.2 x) ∧ seg (h.set c.2 x) q (c :: B) n := by
  obtain ⟨h1, h2⟩ := hs
  have hlt := (List.getElem?_eq_some_iff.1 h1).1
  refine ⟨some ⟨c.1, q, hd B n⟩, ?_, ?_, ?_⟩
  · unfold setPrev; rw [deref_some h1]; rfl
  · rw [List.getElem?_set_self hlt]
  · refine (seg_frame B _ _ ?_).2 h2
    intro d hd he
    rw [ids, List.map_cons, List.nodup_cons] at hnd
    exact hnd.1 (he ▸ List.mem_map_of_mem hd)

/-- The set, its list of cells, and what holds between them. -/
structure SRel (F : Fns K) (hs : HS K) (cells : List (Cell K)) : Prop where
  list : seg hs.heap none cells none
  nodup : (ids cells).Nodup
  first : hs.first = hd cells none
  last : hs.last = lst cells none
  size : hs.size = cells.length
  ht : Rel F hs.ht cells

theorem Rel.permute {F : Fns K} (L : Laws F) {V : Type} {t : Tbl K V} {m m' : List (K × V)} (h : Rel F t m) (hp : m.Perm m') : Rel F t m' :=
  ⟨h.inv, h.pow, h.size, h.fill, h.room, h.perm.trans hp, h.dist.perm L hp⟩

theorem mfind_sfind (eq : K → K → Bool) (cells : List (Cell K)) (k : K) :
    (mfind eq cells k).map (·.1) = sfind eq (cells.map (·.1)) k := by
  unfold mfind sfind
  induction cells with
  | nil => rfl
  | cons c cells ih =>
    simp only [List.map_cons, List.find?_cons]
    cases eq c.1 k with
    | true => rfl
    | false => exact ih

theorem mdel_sdel (eq : K → K → Bool) (cells : List (Cell K)) (k : K) :
    (mdel eq cells k).map (·.1) = sdel eq (cells.map (·.1)) k := by
  unfold mdel sdel
  rw [List.filter_map]; rfl

theorem hasKey_spec {F : Fns K} (L : Laws F) {V : Type} {t : Tbl K V} {m} (h : Rel F t m) (k : K) :
    ∃ t', Rel F t' m ∧ Hash.hasKey F t k = .ok (match mfind F.eq m k with
      | none => .absent
      | some p => if F.same p.1 k then .same else .equal, t') := by
  obtain ⟨t', h1, h2⟩ := Hash.doOp_spec L h (.has k)
  simp only [Hash.doOp, hstep] at h1 h2
  rw [Res.bind_eq_ok] at h1
  obtain ⟨⟨s, t2⟩, h3, h4⟩ := h1
  simp only [Res.ok.injEq, Prod.mk.injEq] at h4
  obtain ⟨h4, rfl⟩ := h4
  refine ⟨t2, h2, ?_⟩
  rw [h3]
  unfold mstatus at h4
  cases hf : mfind F.eq m k with
  | none => rw [hf] at h4; cases s <;> simp [Status.obs] at h4 ⊢
  | some p =>
    rw [hf] at h4
    simp only at h4 ⊢
    cases hp : F.same p.1 k <;> rw [hp] at h4 <;> cases s <;> simp [Status.obs] at h4 ⊢

theorem get_spec {F : Fns K} (L : Laws F) {V : Type} {t : Tbl K V} {m} (h : Rel F t m) (k : K) :
    ∃ t', Rel F t' m ∧ Hash.get F t k = .ok ((mfind F.eq m k).map (·.2), t') := by
  obtain ⟨t', h1, h2⟩ := Hash.doOp_spec L h (.get k)
  simp only [Hash.doOp, hstep] at h1 h2
  rw [Res.bind_eq_ok] at h1
  obtain ⟨⟨s, t2⟩, h3, h4⟩ := h1
  simp only [Res.ok.injEq, Prod.mk.injEq, HObs.val.injEq] at h4
  obtain ⟨h4, rfl⟩ := h4
  exact ⟨t2, h2, by rw [h3, h4]⟩

theorem hset_spec {F : Fns K} (L : Laws F) {V : Type} {t : Tbl K V} {m} (h : Rel F t m) (k : K) (v : V) :
    ∃ s t', Rel F t' ((k, v) :: mdel F.eq m k) ∧ Hash.set F t k v = .ok (s, t') := by
  obtain ⟨t', h1, h2⟩ := Hash.doOp_spec L h (.set k v)
  simp only [Hash.doOp, hstep] at h1 h2
  rw [Res.bind_eq_ok] at h1
  obtain ⟨⟨s, t2⟩, h3, h4⟩ := h1
  simp only [Res.ok.injEq, Prod.mk.injEq] at h4
  obtain ⟨_, rfl⟩ := h4
  exact ⟨s, t2, h2, h3⟩

theorem append_spec {F : Fns K} (L : Laws F) {hs : HS K} {cells} (h : SRel F hs cells) (k : K) (ha : mfind F.eq cells k = none) :
    ∃ hs' id, append F hs k = .ok hs' ∧ SRel F hs' (cells ++ [(k, id)]) := by
  have habs : ∀ p ∈ cells, F.eq p.1 k = false := fun p hp => by simpa using List.find?_eq_none.1 ha p hp
  obtain ⟨s, t', h1, h2⟩ := hset_spec L h.ht k hs.heap.length
  rw [(Hash.mfind_absent habs).2] at h1
  have h1' : Rel F t' (cells ++ [(k, hs.heap.length)]) := Rel.permute L h1 (List.perm_append_singleton _ _).symm
  have hnew : ∀ c ∈ cells, c.2 ≠ hs.heap.length := fun c hc => Nat.ne_of_lt (seg_lt _ _ _ h.list c hc)
  have hnd : (ids (cells ++ [(k, hs.heap.length)])).Nodup := by
    rw [ids, List.map_append, List.nodup_append]
    refine ⟨h.nodup, by simp, ?_⟩
    intro a ha b hb
    obtain ⟨c, hc, rfl⟩ := List.mem_map.1 ha
    simp at hb; subst hb; exact hnew c hc
  have hgrow := seg_grow (x := some ⟨k, hs.last, none⟩) _ _ _ h.list
  have hat : (hs.heap ++ [some ⟨k, hs.last, none⟩])[hs.heap.length]? = some (some ⟨k, hs.last, none⟩) := by simp
  have hlast : lst (cells ++ [(k, hs.heap.length)]) none = some hs.heap.length := by rw [lst_append]; rfl
  unfold append
  rcases List.eq_nil_or_concat cells with hc | ⟨A, c, hc⟩
  · subst hc
    have hf : hs.first = none := h.first
    have hl : hs.last = none := h.last
    rw [hf]
    simp only [Res.ok_bind, h2]
    refine ⟨_, hs.heap.length, rfl, ⟨?_, hnd, rfl, rfl, by simp [h.size], h1'⟩⟩
    refine ⟨?_, trivial⟩
    show (hs.heap ++ [_])[hs.heap.length]? = _
    rw [hat, hl]; rfl
  · have hf : ∃ f, hs.first = some f := by
      rw [h.first, hc]; cases A with
      | nil => exact ⟨_, rfl⟩
      | cons a A => exact ⟨_, rfl⟩
    obtain ⟨f, hf⟩ := hf
    rw [hf]
    simp only
    rw [List.concat_eq_append] at hc
    rw [hc] at hgrow
    obtain ⟨x, g1, g2⟩ := setNext_spec hgrow (by rw [← hc]; exact h.nodup) (some hs.heap.length)
    rw [← hc, ← h.last] at g1
    rw [g1]
    simp only [Res.ok_bind, h2]
    refine ⟨_, hs.heap.length, rfl, ⟨?_, hnd, ?_, ?_, by simp [h.size], h1'⟩⟩
    · rw [seg_append]
      refine ⟨by rw [hc]; exact g2, ?_, trivial⟩
      show (List.set _ c.2 x)[hs.heap.length]? = _
      rw [List.getElem?_set_ne (hnew c (by rw [hc]; simp)), hat, h.last]; rfl
    · show some f = _
      rw [← hf, h.first, hd_append, hc]
      cases A <;> rfl
    · exact hlast.symm

theorem distinct_split {F : Fns K} {V : Type} (L : Laws F) {A B : List (K × V)} {c : K × V} (hd : Distinct F (A ++ c :: B)) {k : K} (hk : F.eq c.1 k = true) :
    mdel F.eq (A ++ c :: B) k = A ++ B := by
  unfold mdel
  rw [List.filter_append, List.filter_cons]
  simp only [hk, Bool.not_true, Bool.false_eq_true, if_false]
  unfold Distinct at hd
  rw [List.pairwise_append, List.pairwise_cons] at hd
  rw [List.filter_eq_self.2, List.filter_eq_self.2]
  · intro q hq
    have := hd.2.1.1 q hq
    rw [Hash.eq_cong L hk, Hash.eq_comm' L] at this
    simp [this]
  · intro q hq
    have := hd.2.2 q hq c List.mem_cons_self
    rw [Hash.eq_comm' L, Hash.eq_cong L hk, Hash.eq_comm' L] at this
    simp [this]

theorem nodup_sub {A B : List (Cell K)} {c : Cell K} (h : (ids (A ++ c :: B)).Nodup) :
    (ids A).Nodup ∧ (ids B).Nodup ∧ (∀ a ∈ A, a.2 ≠ c.2) ∧ (∀ b ∈ B, b.2 ≠ c.2) ∧ (∀ a ∈ A, ∀ b ∈ B, a.2 ≠ b.2) ∧ (ids (A ++ B)).Nodup := by
  have h0 := h
  simp only [ids, List.map_append, List.map_cons, List.nodup_append, List.nodup_cons] at h
  obtain ⟨h1, ⟨h2, h3⟩, h4⟩ := h
  refine ⟨h1, h3, ?_, ?_, ?_, ?_⟩
  · intro a ha; exact h4 a.2 (List.mem_map_of_mem ha) c.2 List.mem_cons_self
  · intro b hb he; exact h2 (he ▸ List.mem_map_of_mem hb)
  · intro a ha b hb; exact h4 a.2 (List.mem_map_of_mem ha) b.2 (List.mem_cons_of_mem _ (List.mem_map_of_mem hb))
  · refine h0.sublist ?_
    exact List.Sublist.map _ (List.Sublist.append (List.Sublist.refl _) (List.sublist_cons_self _ _))

theorem lst_mem : ∀ (A : List (Cell K)) p i, lst A p = some i → (∃ a ∈ A, a.2 = i) ∨ (A = [] ∧ p = some i) := by
  intro A
  induction A with
  | nil => intro p i h; exact .inr ⟨rfl, h⟩
  | cons c A ih =>
    intro p i h
    left
    rcases ih _ _ h with ⟨a, ha, he⟩ | ⟨_, he⟩
    · exact ⟨a, List.mem_cons_of_mem _ ha, he⟩
    · exact ⟨c, List.mem_cons_self, Option.some.inj he⟩

/-- Unlinking the cell `c` leaves the rest linked, and `c` in place. -/
theorem unlink_spec {F : Fns K} {hs : HS K} {A B : List (Cell K)} {c : Cell K} (h : SRel F hs (A ++ c :: B)) :
    ∃ hs' p n, unlink hs c.2 = .ok hs' ∧ hs'.heap[c.2]? = some (some ⟨c.1, p, n⟩) ∧ hs'.size = hs.size ∧ hs'.ht = hs.ht ∧
      seg hs'.heap none (A ++ B) none ∧ hs'.first = hd (A ++ B) none ∧ hs'.last = lst (A ++ B) none := by
  obtain ⟨hA, hB, hAc, hBc, hAB, _⟩ := nodup_sub h.nodup
  have hseg := h.list
  rw [seg_append] at hseg
  obtain ⟨s1, s2, s3⟩ := hseg
  have hfirst : hs.first = some (match A with | [] => c.2 | a :: _ => a.2) := by rw [h.first]; cases A <;> rfl
  have hlast : hs.last = lst B (some c.2) := by rw [h.last, lst_append]; rfl
  unfold unlink
  rcases A with _ | ⟨a, A'⟩
  · rcases B with _ | ⟨b, B'⟩
    · rw [if_pos (by rw [hfirst, hlast]; rfl)]
      exact ⟨_, _, _, rfl, s2, rfl, rfl, trivial, rfl, rfl⟩
    · have hne : hs.first ≠ hs.last := by
        rw [hfirst, hlast]
        intro he
        rcases lst_mem _ _ _ he.symm with ⟨d, hd, e⟩ | ⟨e, _⟩
        · exact hBc d hd e
        · cases e
      rw [if_neg hne, deref_some s2]
      simp only [Res.ok_bind]
      rw [if_pos hfirst]
      obtain ⟨x, g1, g2⟩ := setPrev_spec s3 hB none
      simp only [hd]
      rw [g1]
      refine ⟨_, none, some b.2, rfl, ?_, rfl, rfl, g2, rfl, ?_⟩
      · show (List.set _ b.2 x)[c.2]? = _
        rw [List.getElem?_set_ne (hBc b List.mem_cons_self)]; exact s2
      · exact hlast
  · have hf : hs.first ≠ some c.2 := by
      rw [hfirst]; intro he; exact hAc a List.mem_cons_self (Option.some.inj he)
    have hne : hs.first ≠ hs.last := by
      rw [hfirst, hlast]
      intro he
      rcases lst_mem _ _ _ he.symm with ⟨d, hd, e⟩ | ⟨_, e⟩
      · exact hAB a List.mem_cons_self d hd e.symm
      · exact hAc a List.mem_cons_self (Option.some.inj e).symm
    obtain ⟨A2, a2, hA2⟩ : ∃ A2 a2, a :: A' = A2 ++ [a2] := by
      rcases List.eq_nil_or_concat (a :: A') with h | ⟨A2, a2, h⟩
      · cases h
      · exact ⟨A2, a2, by rw [h, List.concat_eq_append]⟩
    rw [if_neg hne, deref_some s2]
    simp only [Res.ok_bind]
    rw [if_neg hf]
    rw [hA2] at s1 s2 hA hAc hAB ⊢
    have hal : lst (A2 ++ [a2]) none = some a2.2 := by rw [lst_append]; rfl
    have hhead : hd (A2 ++ [a2] ++ B) none = hs.first := by
      rw [h.first, hA2, hd_append, hd_append]
      cases A2 <;> rfl
    rcases B with _ | ⟨b, B'⟩
    · rw [if_pos (show hs.last = some c.2 from hlast)]
      obtain ⟨x, g1, g2⟩ := setNext_spec s1 hA none
      rw [g1]
      refine ⟨_, lst (A2 ++ [a2]) none, none, rfl, ?_, rfl, rfl, ?_, ?_, ?_⟩
      · show (List.set _ a2.2 x)[c.2]? = _
        rw [List.getElem?_set_ne (hAc a2 (by simp))]; exact s2
      · rw [List.append_nil]; exact g2
      · exact hhead.symm
      · rw [List.append_nil]
    · have hl : hs.last ≠ some c.2 := by
        rw [hlast]; intro he
        rcases lst_mem _ _ _ he with ⟨d, hd, e⟩ | ⟨e, _⟩
        · exact hBc d hd e
        · cases e
      rw [if_neg hl]
      obtain ⟨x, g1, g2⟩ := setNext_spec s1 hA (some b.2)
      simp only [hd]
      rw [g1]
      simp only [Res.ok_bind]
      have hc2 : (hs.heap.set a2.2 x)[c.2]? = some (some ⟨c.1, lst (A2 ++ [a2]) none, some b.2⟩) := by
        rw [List.getElem?_set_ne (hAc a2 (by simp))]; exact s2
      rw [deref_some hc2]
      simp only [Res.ok_bind]
      have s3' : seg (hs.heap.set a2.2 x) (some c.2) (b :: B') none :=
        (seg_frame _ _ _ (fun d hd e => hAB a2 (by simp) d hd e.symm)).2 s3
      obtain ⟨y, g3, g4⟩ := setPrev_spec s3' hB (lst (A2 ++ [a2]) none)
      rw [g3]
      refine ⟨_, lst (A2 ++ [a2]) none, some b.2, rfl, ?_, rfl, rfl, ?_, ?_, ?_⟩
      · show (List.set _ b.2 y)[c.2]? = _
        rw [List.getElem?_set_ne (hBc b List.mem_cons_self)]; exact hc2
      · show seg (List.set _ b.2 y) _ _ _
        rw [seg_append]
        exact ⟨(seg_frame _ _ _ (fun d hd => hAB d hd b List.mem_cons_self)).2 g2, g4⟩
      · exact hhead.symm
      · show hs.last = _
        rw [hlast, lst_append]; rfl

theorem mfind_split {eq : K → K → Bool} {V : Type} {m : List (K × V)} {k p} (h : mfind eq m k = some p) :
    ∃ A B, m = A ++ p :: B ∧ eq p.1 k = true := by
  have h1 := List.find?_some h
  obtain ⟨A, B, h2⟩ := List.append_of_mem (List.mem_of_find?_eq_some h)
  exact ⟨A, B, h2, h1⟩

theorem rem_spec {F : Fns K} (L : Laws F) {hs : HS K} {cells} (h : SRel F hs cells) (k : K) :
    ∃ hs', rem F hs k = .ok ((mfind F.eq cells k).map (·.1), hs') ∧ SRel F hs' (mdel F.eq cells k) := by
  obtain ⟨t', h1, h2⟩ := get_spec L h.ht k
  unfold rem
  rw [h2]
  simp only [Res.ok_bind]
  cases hf : mfind F.eq cells k with
  | none =>
    have habs : ∀ p ∈ cells, F.eq p.1 k = false := fun p hp => by simpa using List.find?_eq_none.1 hf p hp
    rw [(Hash.mfind_absent habs).2]
    exact ⟨_, rfl, h.list, h.nodup, h.first, h.last, h.size, h1⟩
  | some c =>
    obtain ⟨A, B, hc, hk⟩ := mfind_split hf
    subst hc
    have h0 : SRel F { hs with ht := t' } (A ++ c :: B) := ⟨h.list, h.nodup, h.first, h.last, h.size, h1⟩
    obtain ⟨hs', p, n, g1, g2, g3, g4, g5, g6, g7⟩ := unlink_spec h0
    simp only [Option.map_some]
    rw [g1]
    simp only [Res.ok_bind]
    rw [deref_some g2]
    simp only [Res.ok_bind]
    have h1' : Rel F hs'.ht (A ++ c :: B) := by rw [g4]; exact h1
    obtain ⟨t2, q1, q2⟩ := Hash.rem_spec L h1' c.1
    rw [q1]
    simp only [Res.ok_bind]
    have hsz : hs'.size = (A ++ c :: B).length := by rw [g3]; exact h.size
    rw [if_neg (by rw [hsz]; simp)]
    obtain ⟨hA, hB, hAc, hBc, hAB, hN⟩ := nodup_sub h.nodup
    rw [distinct_split L h1.dist hk]
    rw [distinct_split L h1.dist (L.refl c.1)] at q2
    refine ⟨_, rfl, ?_, hN, g6, g7, ?_, q2⟩
    · refine (seg_frame _ _ _ ?_).2 g5
      intro d hd
      rcases List.mem_append.1 hd with hd | hd
      · exact hAc d hd
      · exact hBc d hd
    · show hs'.size - 1 = _
      rw [hsz]; simp

theorem walk_spec {h : List (Option (Node K))} : ∀ (A : List (Cell K)) p fuel, seg h p A none → A.length ≤ fuel →
    walk h fuel (hd A none) = .ok (A.map (·.1)) := by
  intro A
  induction A with
  | nil => intro p fuel _ _; cases fuel <;> rfl
  | cons c A ih =>
    intro p fuel hs hf
    obtain ⟨fuel, rfl⟩ : ∃ f, fuel = f + 1 := ⟨fuel - 1, by simp at hf; omega⟩
    show walk h (fuel + 1) (some c.2) = _
    simp only [walk, deref_some hs.1, Res.ok_bind]
    rw [ih _ _ hs.2 (by simpa using hf)]
    rfl

theorem nodup_lt_length (l : List Nat) (n : Nat) (hn : l.Nodup) (hl : ∀ x ∈ l, x < n) : l.length ≤ n := by
  induction n generalizing l with
  | zero =>
    cases l with
    | nil => simp
    | cons a l => exact absurd (hl a List.mem_cons_self) (by omega)
  | succ n ih =>
    have h1 := ih (l.erase n) (hn.erase n) (fun x hx => by
      have h2 := hl x (List.mem_of_mem_erase hx)
      have h3 : x ≠ n := (hn.mem_erase_iff.1 hx).1
      omega)
    have h2 := List.length_erase (a := n) (l := l)
    split at h2 <;> omega

theorem cells_le {F : Fns K} {hs : HS K} {cells} (h : SRel F hs cells) : cells.length ≤ hs.heap.length := by
  have := nodup_lt_length (ids cells) hs.heap.length h.nodup (fun x hx => by
    obtain ⟨c, hc, rfl⟩ := List.mem_map.1 hx
    exact seg_lt _ _ _ h.list c hc)
  simpa [ids] using this

theorem elems_spec {F : Fns K} {hs : HS K} {cells} (h : SRel F hs cells) : elems hs = .ok (cells.map (·.1)) := by
  unfold elems
  rw [h.first]
  exact walk_spec _ _ _ h.list (cells_le h)

theorem freeAll_spec : ∀ (A : List (Cell K)) (h : List (Option (Node K))) p fuel, seg h p A none → (ids A).Nodup → A.length ≤ fuel →
    ∃ h', freeAll h fuel (hd A none) = .ok h' := by
  intro A
  induction A with
  | nil => intro h p fuel _ _ _; exact ⟨h, by cases fuel <;> rfl⟩
  | cons c A ih =>
    intro h p fuel hs hn hf
    obtain ⟨fuel, rfl⟩ : ∃ f, fuel = f + 1 := ⟨fuel - 1, by simp at hf; omega⟩
    show ∃ h', freeAll h (fuel + 1) (some c.2) = .ok h'
    simp only [freeAll, deref_some hs.1, Res.ok_bind]
    rw [ids, List.map_cons, List.nodup_cons] at hn
    exact ih (h.set c.2 none) (some c.2) fuel ((seg_frame _ _ _ (fun d hd e => hn.1 (by rw [← e]; exact List.mem_map_of_mem hd))).2 hs.2) hn.2 (by simpa using hf)

theorem clear_spec {F : Fns K} {hs : HS K} {cells} (h : SRel F hs cells) : ∃ hs', clear hs = .ok hs' ∧ SRel F hs' [] := by
  obtain ⟨h', g⟩ := freeAll_spec _ _ _ _ h.list h.nodup (cells_le h)
  unfold clear
  rw [h.first, g]
  exact ⟨_, rfl, trivial, List.nodup_nil, rfl, rfl, rfl, Hash.rel_clear h.ht⟩

theorem add_spec {F : Fns K} (L : Laws F) {hs : HS K} {cells} (h : SRel F hs cells) (k : K) :
    ∃ s hs' cells', add F hs k = .ok (s, hs') ∧ SRel F hs' cells' ∧ cells'.map (·.1) = sadd F.eq (cells.map (·.1)) k ∧
      sobs s = sstatus F.eq F.same (cells.map (·.1)) k := by
  obtain ⟨t', h1, h2⟩ := hasKey_spec L h.ht k
  have h0 : SRel F { hs with ht := t' } cells := ⟨h.list, h.nodup, h.first, h.last, h.size, h1⟩
  unfold add sadd sstatus
  rw [h2, ← mfind_sfind]
  simp only [Res.ok_bind]
  cases hf : mfind F.eq cells k with
  | none =>
    simp only
    obtain ⟨hs', id, g1, g2⟩ := append_spec L h0 k hf
    rw [g1]
    exact ⟨_, _, _, rfl, g2, by simp, rfl⟩
  | some c =>
    simp only [Option.map_some]
    cases F.same c.1 k with
    | true => exact ⟨_, _, _, rfl, h0, by simp, rfl⟩
    | false => exact ⟨_, _, _, rfl, h0, by simp, rfl⟩

theorem addAll_spec {F : Fns K} (L : Laws F) (ks : List K) : ∀ {hs : HS K} {cells}, SRel F hs cells →
    ∃ hs' cells', addAll F hs ks = .ok hs' ∧ SRel F hs' cells' ∧ cells'.map (·.1) = ks.foldl (sadd F.eq) (cells.map (·.1)) := by
  induction ks with
  | nil => intro hs cells h; exact ⟨hs, cells, rfl, h, rfl⟩
  | cons k ks ih =>
    intro hs cells h
    obtain ⟨s, hs', cells', g1, g2, g3, _⟩ := add_spec L h k
    obtain ⟨hs2, cells2, g4, g5, g6⟩ := ih g2
    refine ⟨hs2, cells2, ?_, g5, ?_⟩
    · simp only [addAll, g1, Res.ok_bind]; exact g4
    · rw [g6, g3]; rfl

theorem srel_new {F : Fns K} : SRel F (new : HS K) [] :=
  ⟨trivial, List.nodup_nil, rfl, rfl, rfl, Hash.rel_new⟩

theorem doOp_spec {F : Fns K} (L : Laws F) {hs : HS K} {cells} (h : SRel F hs cells) (op : SOp K) :
    ∃ hs' cells', doOp F hs op = .ok ((sstep F.eq F.same (cells.map (·.1)) op).1, hs') ∧ SRel F hs' cells' ∧
      cells'.map (·.1) = (sstep F.eq F.same (cells.map (·.1)) op).2 := by
  cases op with
  | add k =>
    obtain ⟨s, hs', cells', g1, g2, g3, g4⟩ := add_spec L h k
    exact ⟨hs', cells', by simp only [doOp, g1, Res.ok_bind, sstep, g4], g2, g3⟩
  | addSafe k =>
    obtain ⟨t', h1, h2⟩ := hasKey_spec L h.ht k
    have h0 : SRel F { hs with ht := t' } cells := ⟨h.list, h.nodup, h.first, h.last, h.size, h1⟩
    simp only [doOp, addSafe, h2, Res.ok_bind, sstep, sadd]
    rw [← mfind_sfind]
    cases hf : mfind F.eq cells k with
    | none =>
      obtain ⟨hs', id, g1, g2⟩ := append_spec L h0 k hf
      simp only [g1, Res.ok_bind]
      exact ⟨_, _, rfl, g2, by simp⟩
    | some c =>
      simp only [Option.map_some]
      cases F.same c.1 k with
      | true => exact ⟨_, _, rfl, h0, by simp⟩
      | false => exact ⟨_, _, rfl, h0, by simp⟩
  | rem k =>
    obtain ⟨hs', g1, g2⟩ := rem_spec L h k
    exact ⟨hs', _, by simp only [doOp, g1, Res.ok_bind, sstep, mfind_sfind], g2, mdel_sdel _ _ _⟩
  | del k =>
    obtain ⟨hs', g1, g2⟩ := rem_spec L h k
    exact ⟨hs', _, by simp only [doOp, g1, Res.ok_bind, sstep, mfind_sfind], g2, mdel_sdel _ _ _⟩
  | exist k =>
    obtain ⟨t', h1, h2⟩ := hasKey_spec L h.ht k
    refine ⟨_, cells, ?_, (⟨h.list, h.nodup, h.first, h.last, h.size, h1⟩ : SRel F { hs with ht := t' } cells), rfl⟩
    simp only [doOp, exist, h2, Res.ok_bind, sstep, sstatus]
    rw [← mfind_sfind]
    cases mfind F.eq cells k with
    | none => rfl
    | some c => simp only [Option.map_some]; cases F.same c.1 k <;> rfl
  | orig k =>
    obtain ⟨t', h1, h2⟩ := get_spec L h.ht k
    refine ⟨_, cells, ?_, (⟨h.list, h.nodup, h.first, h.last, h.size, h1⟩ : SRel F { hs with ht := t' } cells), rfl⟩
    simp only [doOp, orig, h2, Res.ok_bind, sstep]
    rw [← mfind_sfind]
    cases hf : mfind F.eq cells k with
    | none => rfl
    | some c =>
      obtain ⟨A, B, hc, hk⟩ := mfind_split hf
      have hl := h.list
      rw [hc, seg_append] at hl
      simp only [Option.map_some]
      rw [deref_some hl.2.1]; rfl
  | count => exact ⟨hs, cells, by simp [doOp, sstep, h.size], h, rfl⟩
  | elems => exact ⟨hs, cells, by simp only [doOp, elems_spec h, Res.ok_bind, sstep], h, rfl⟩
  | clear =>
    obtain ⟨hs', g1, g2⟩ := clear_spec h
    exact ⟨hs', [], by simp only [doOp, g1, Res.ok_bind, sstep], g2, rfl⟩
  | merge other =>
    obtain ⟨o, co, g1, g2, g3⟩ := addAll_spec L other (srel_new (F := F))
    obtain ⟨hs', c', g4, g5, g6⟩ := addAll_spec L (co.map (·.1)) h
    refine ⟨hs', c', ?_, g5, ?_⟩
    · simp only [doOp, g1, Res.ok_bind, merge, elems_spec g2, g4, sstep]
    · rw [g6, g3]; rfl

theorem doOps_spec {F : Fns K} (L : Laws F) (ops : List (SOp K)) : ∀ {hs : HS K} {cells}, SRel F hs cells →
    ∃ hs' cells', doOps F hs ops = .ok ((srun F.eq F.same (cells.map (·.1)) ops).1, hs') ∧ SRel F hs' cells' ∧
      cells'.map (·.1) = (srun F.eq F.same (cells.map (·.1)) ops).2 := by
  induction ops with
  | nil => intro hs cells h; exact ⟨hs, cells, rfl, h, rfl⟩
  | cons op ops ih =>
    intro hs cells h
    obtain ⟨h1, c1, g1, g2, g3⟩ := doOp_spec L h op
    obtain ⟨h2, c2, g4, g5, g6⟩ := ih g2
    rw [g3] at g4 g6
    exact ⟨h2, c2, by simp only [doOps, g1, g4, Res.ok_bind]; rfl, g5, g6⟩

end Ferret.HashSet
