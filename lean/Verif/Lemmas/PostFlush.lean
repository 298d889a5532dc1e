import Verif.Lemmas.PostSkip
import Verif.Props.C20

/-! What flushing a segment leaves in its files. -/

namespace Ferret.Post
open Ferret Ferret.Expand Ferret.Dict Ferret.Props

/-! ### Sizes -/

/-- The number of occurrences. -/
def occs (ps : List Posting) : Nat := (ps.map fun p => p.occ.length).sum

theorem encFrq_length_le : ∀ (ps : List Posting) (last : Nat), (encFrq last ps).length ≤ 20 * ps.length := by
  intro ps
  induction ps with
  | nil => intro _; simp [encFrq]
  | cons p ps ih =>
    intro last
    have h1 := ih p.doc
    have h2 : (frqBytes last p).length ≤ 20 := by
      unfold frqBytes
      dsimp only
      split
      · have := vint_le (toU 4 (((p.doc : Int) - last) * 2 + 1)); omega
      · have := vint_le (toU 4 (((p.doc : Int) - last) * 2))
        have := vint_le p.freq
        rw [List.length_append]; omega
    simp only [encFrq, List.length_append, List.length_cons]
    omega

theorem prxBytes_length_le : ∀ (xs : List Int) (last : Int), (prxBytes last xs).length ≤ 10 * xs.length := by
  intro xs
  induction xs with
  | nil => intro _; simp [prxBytes]
  | cons x xs ih =>
    intro last
    have := ih x
    have := vint_le (toU 4 (x - last))
    simp only [prxBytes, List.length_append, List.length_cons]
    omega

theorem encPrx_length_le : ∀ (ps : List Posting), (encPrx ps).length ≤ 10 * occs ps := by
  intro ps
  induction ps with
  | nil => simp [encPrx]
  | cons p ps ih =>
    have := prxBytes_length_le p.occ 0
    have e : occs (p :: ps) = p.occ.length + occs ps := by simp [occs]
    simp only [encPrx, List.length_append]
    omega

theorem encSkip_length_le (ps : List Posting) (si : Nat) : ∀ (k j : Nat), (encSkip ps si j k).length ≤ 30 * k := by
  intro k
  induction k with
  | zero => intro _; simp [encSkip]
  | succ k ih =>
    intro j
    have := ih (j + 1)
    have h : (entry ps si j).length ≤ 30 := by
      unfold entry
      have := vint_le (D ps ((j + 1) * si - 1) - D ps (j * si - 1))
      have := vint_le (F ps ((j + 1) * si - 1) - F ps (j * si - 1))
      have := vint_le (P ps ((j + 1) * si - 1) - P ps (j * si - 1))
      simp only [List.length_append]
      omega
    simp only [encSkip, List.length_append]
    omega

/-! ### Terms -/

/-- The entry `ti` is where the postings `ps` are. -/
structure Loc (frq prx : List Byte) (si : Nat) (ti : TI) (ps : List Posting) : Prop where
  docFreq : ti.docFreq = ps.length
  skip : ti.skip = (encFrq 0 ps).length
  frqAt : ∃ rest, frq.drop ti.frqPtr = encFrq 0 ps ++ (encSkip ps si 0 (ps.length / si) ++ rest)
  frqLe : ti.frqPtr ≤ frq.length
  prxAt : ∃ rest, prx.drop ti.prxPtr = encPrx ps ++ rest
  prxLe : ti.prxPtr ≤ prx.length

theorem Loc.extend {frq prx : List Byte} {si : Nat} {ti : TI} {ps : List Posting} (h : Loc frq prx si ti ps) (a b : List Byte) : Loc (frq ++ a) (prx ++ b) si ti ps := by
  obtain ⟨r1, h1⟩ := h.frqAt
  obtain ⟨r2, h2⟩ := h.prxAt
  have l1 := h.frqLe
  have l2 := h.prxLe
  refine ⟨h.docFreq, h.skip, ⟨r1 ++ a, ?_⟩, by rw [List.length_append]; omega, ⟨r2 ++ b, ?_⟩, by rw [List.length_append]; omega⟩
  · rw [List.drop_append_of_le_length l1, h1]; simp
  · rw [List.drop_append_of_le_length l2, h2]; simp

def docsIn (ts : List (Term × List Posting)) : Nat := (ts.map fun x => x.2.length).sum
def occsIn (ts : List (Term × List Posting)) : Nat := (ts.map fun x => occs x.2).sum

/-- What was flushed for the terms of a field. -/
structure TermsFlushed (si : Nat) (frq prx : List Byte) (ts : List (Term × List Posting)) (r : List Byte × List Byte × List (Term × TI)) : Prop where
  frqE : ∃ a, r.1 = frq ++ a ∧ a.length ≤ 50 * docsIn ts
  prxE : ∃ b, r.2.1 = prx ++ b ∧ b.length ≤ 10 * occsIn ts
  names : r.2.2.map (·.1) = ts.map (·.1)
  low : ∀ e ∈ r.2.2, frq.length ≤ e.2.frqPtr ∧ prx.length ≤ e.2.prxPtr
  frqs : r.2.2.Pairwise fun a b => a.2.frqPtr ≤ b.2.frqPtr
  prxs : r.2.2.Pairwise fun a b => a.2.prxPtr ≤ b.2.prxPtr
  loc : ∀ (i : Nat) x, ts[i]? = some x → ∃ ti, r.2.2[i]? = some (x.1, ti) ∧ Loc r.1 r.2.1 si ti x.2

theorem flushTerms_spec {si : Nat} (hsi : 0 < si) : ∀ (ts : List (Term × List Posting)) (frq prx : List Byte), (∀ x ∈ ts, PsOK x.2) →
    TermsFlushed si frq prx ts (flushTerms si frq prx ts) := by
  intro ts
  induction ts with
  | nil =>
    intro frq prx _
    exact ⟨⟨[], by simp [flushTerms], by simp⟩, ⟨[], by simp [flushTerms], by simp⟩, rfl, fun e he => by simp [flushTerms] at he,
      List.Pairwise.nil, List.Pairwise.nil, fun i x hx => by simp at hx⟩
  | cons y ts ih =>
    intro frq prx hok
    obtain ⟨t, ps⟩ := y
    have hps : PsOK ps := hok _ (List.mem_cons_self ..)
    unfold flushTerms
    dsimp only
    rw [flushTerm_spec hps si hsi]
    dsimp only
    have h := ih (frq ++ (encFrq 0 ps ++ encSkip ps si 0 (ps.length / si))) (prx ++ encPrx ps) fun x hx => hok x (List.mem_cons_of_mem _ hx)
    generalize flushTerms si (frq ++ (encFrq 0 ps ++ encSkip ps si 0 (ps.length / si))) (prx ++ encPrx ps) ts = r at h
    obtain ⟨a, ha, la⟩ := h.frqE
    obtain ⟨b, hb, lb⟩ := h.prxE
    have s1 := encFrq_length_le ps 0
    have s2 := encSkip_length_le ps si (ps.length / si) 0
    have s3 := encPrx_length_le ps
    have s4 := Nat.div_le_self ps.length si
    have d1 : docsIn ((t, ps) :: ts) = ps.length + docsIn ts := by simp [docsIn]
    have d2 : occsIn ((t, ps) :: ts) = occs ps + occsIn ts := by simp [occsIn]
    refine ⟨⟨encFrq 0 ps ++ encSkip ps si 0 (ps.length / si) ++ a, by rw [ha]; simp, by simp only [List.length_append]; omega⟩,
      ⟨encPrx ps ++ b, by rw [hb]; simp, by simp only [List.length_append]; omega⟩, by simp [h.names], ?_, ?_, ?_, ?_⟩
    · intro e he
      rcases List.mem_cons.1 he with rfl | he
      · exact ⟨Nat.le_refl _, Nat.le_refl _⟩
      · obtain ⟨l1, l2⟩ := h.low e he
        simp only [List.length_append] at l1 l2
        exact ⟨by omega, by omega⟩
    · refine List.pairwise_cons.2 ⟨fun e he => ?_, h.frqs⟩
      have := (h.low e he).1
      simp only [List.length_append] at this
      show frq.length ≤ _
      omega
    · refine List.pairwise_cons.2 ⟨fun e he => ?_, h.prxs⟩
      have := (h.low e he).2
      simp only [List.length_append] at this
      show prx.length ≤ _
      omega
    · intro i x hx
      cases i with
      | zero =>
        simp only [List.getElem?_cons_zero, Option.some.injEq] at hx
        subst hx
        refine ⟨_, rfl, rfl, rfl, ⟨a, ?_⟩, ?_, ⟨b, ?_⟩, ?_⟩
        · rw [ha]
          simp [List.append_assoc]
        · rw [ha]; simp only [List.length_append]; omega
        · rw [hb]
          simp [List.append_assoc]
        · rw [hb]; simp only [List.length_append]; omega
      | succ i =>
        simp only [List.getElem?_cons_succ] at hx ⊢
        exact h.loc i x hx

/-! ### Fields -/

def docsAll (fields : List (Nat × List (Term × List Posting))) : Nat := (fields.map fun x => docsIn x.2).sum
def occsAll (fields : List (Nat × List (Term × List Posting))) : Nat := (fields.map fun x => occsIn x.2).sum

structure FieldsFlushed (si : Nat) (frq prx : List Byte) (fields : List (Nat × List (Term × List Posting))) (r : List Byte × List Byte × List (Nat × List (Term × TI))) : Prop where
  frqE : ∃ a, r.1 = frq ++ a ∧ a.length ≤ 50 * docsAll fields
  prxE : ∃ b, r.2.1 = prx ++ b ∧ b.length ≤ 10 * occsAll fields
  len : r.2.2.length = fields.length
  field : ∀ (i : Nat) f ts, fields[i]? = some (f, ts) → ∃ es, r.2.2[i]? = some (f, es) ∧ es.map (·.1) = ts.map (·.1) ∧
    (es.Pairwise fun a b => a.2.frqPtr ≤ b.2.frqPtr) ∧ (es.Pairwise fun a b => a.2.prxPtr ≤ b.2.prxPtr) ∧
    ∀ (j : Nat) x, ts[j]? = some x → ∃ ti, es[j]? = some (x.1, ti) ∧ Loc r.1 r.2.1 si ti x.2

theorem flushFields_spec {si : Nat} (hsi : 0 < si) : ∀ (fields : List (Nat × List (Term × List Posting))) (frq prx : List Byte), (∀ x ∈ fields, ∀ y ∈ x.2, PsOK y.2) →
    FieldsFlushed si frq prx fields (flushFields si frq prx fields) := by
  intro fields
  induction fields with
  | nil =>
    intro frq prx _
    exact ⟨⟨[], by simp [flushFields], by simp⟩, ⟨[], by simp [flushFields], by simp⟩, rfl, fun i f ts hx => by simp at hx⟩
  | cons y fields ih =>
    intro frq prx hok
    obtain ⟨f, ts⟩ := y
    have ht := flushTerms_spec hsi ts frq prx (hok _ (List.mem_cons_self ..))
    unfold flushFields
    dsimp only
    generalize flushTerms si frq prx ts = q at ht
    have h := ih q.1 q.2.1 fun x hx => hok x (List.mem_cons_of_mem _ hx)
    generalize flushFields si q.1 q.2.1 fields = r at h
    obtain ⟨a, ha, la⟩ := h.frqE
    obtain ⟨b, hb, lb⟩ := h.prxE
    obtain ⟨a', ha', la'⟩ := ht.frqE
    obtain ⟨b', hb', lb'⟩ := ht.prxE
    have d1 : docsAll ((f, ts) :: fields) = docsIn ts + docsAll fields := by simp [docsAll]
    have d2 : occsAll ((f, ts) :: fields) = occsIn ts + occsAll fields := by simp [occsAll]
    refine ⟨⟨a' ++ a, by rw [ha, ha', List.append_assoc], by rw [List.length_append]; omega⟩, ⟨b' ++ b, by rw [hb, hb', List.append_assoc], by rw [List.length_append]; omega⟩,
      by simp [h.len], ?_⟩
    intro i g us hx
    cases i with
    | zero =>
      simp only [List.getElem?_cons_zero, Option.some.injEq, Prod.mk.injEq] at hx
      obtain ⟨rfl, rfl⟩ := hx
      refine ⟨_, rfl, ht.names, ht.frqs, ht.prxs, fun j x hx => ?_⟩
      obtain ⟨ti, e1, e2⟩ := ht.loc j x hx
      refine ⟨ti, e1, ?_⟩
      rw [ha, hb]
      exact e2.extend a b
    | succ i =>
      simp only [List.getElem?_cons_succ] at hx ⊢
      exact h.field i g us hx

end Ferret.Post
