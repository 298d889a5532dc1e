import Verif.Lemmas.PhraseDoc

/-! Several terms at one phrase position: `MultipleTermDocPosEnum` acts as a cursor over the union. -/

namespace Ferret.Phrase

open Ferret.Post (Posting)
open Ferret.Spec (StrictWeak)

/-! ### Sorting integers -/

theorem insertInt_perm (x : Int) (l : List Int) : (insertInt x l).Perm (x :: l) := by
  induction l with
  | nil => exact .refl _
  | cons y l ih =>
    rw [insertInt]
    split
    · exact .refl _
    · exact (ih.cons y).trans (.swap _ _ _)

theorem insertInt_sorted {x : Int} {l : List Int} (h : l.Pairwise (· ≤ ·)) : (insertInt x l).Pairwise (· ≤ ·) := by
  induction l with
  | nil => exact List.pairwise_singleton _ _
  | cons y l ih =>
    obtain ⟨h1, h2⟩ := List.pairwise_cons.1 h
    rw [insertInt]
    split
    · rename_i hxy
      refine List.pairwise_cons.2 ⟨fun z hz => ?_, h⟩
      rcases List.mem_cons.1 hz with rfl | hz
      · exact hxy
      · exact Int.le_trans hxy (h1 z hz)
    · rename_i hxy
      refine List.pairwise_cons.2 ⟨fun z hz => ?_, ih h2⟩
      rcases List.mem_cons.1 ((insertInt_perm x l).mem_iff.1 hz) with rfl | hz
      · omega
      · exact h1 z hz

theorem sortInts_perm (l : List Int) : (sortInts l).Perm l := by
  induction l with
  | nil => exact .refl _
  | cons x l ih => exact (insertInt_perm x _).trans (ih.cons x)

theorem sortInts_sorted (l : List Int) : (sortInts l).Pairwise (· ≤ ·) := by
  induction l with
  | nil => exact List.Pairwise.nil
  | cons x l ih => exact insertInt_sorted ih

theorem sortInts_eq {a b : List Int} (h : a.Perm b) : sortInts a = sortInts b :=
  List.Perm.eq_of_pairwise (le := (· ≤ ·)) (fun _ _ _ _ h1 h2 => Int.le_antisymm h1 h2) (sortInts_sorted a) (sortInts_sorted b)
    ((sortInts_perm a).trans (h.trans (sortInts_perm b).symm))

/-! ### The union of several lists of documents -/

/-- The positions of document `d` in any of the lists. -/
def occsIn (ls : List (List Posting)) (d : Int) : List Int := ls.flatMap fun l => occAt l d

/-- More than every document number. -/
def topDoc (ls : List (List Posting)) : Nat := (ls.map fun l => (l.map fun p => p.doc + 1).sum).sum

/-- The documents in any of the lists, in order, with all their positions there in order. -/
def union (ls : List (List Posting)) : List Posting :=
  ((List.range (topDoc ls)).filter fun d => !(occsIn ls (d : Nat)).isEmpty).map fun d : Nat => ⟨d, (occsIn ls d).length, sortInts (occsIn ls d)⟩

theorem le_sum {l : List Nat} {x : Nat} (h : x ∈ l) : x ≤ l.sum := by
  induction l with
  | nil => cases h
  | cons a l ih =>
    rw [List.sum_cons]
    rcases List.mem_cons.1 h with rfl | h
    · omega
    · have := ih h; omega

theorem doc_lt_top {ls : List (List Posting)} {l : List Posting} {p : Posting} (hl : l ∈ ls) (hp : p ∈ l) : p.doc < topDoc ls := by
  have h1 : p.doc + 1 ≤ (l.map fun p => p.doc + 1).sum := le_sum (List.mem_map_of_mem (f := fun p : Posting => p.doc + 1) hp)
  have h2 : (l.map fun p => p.doc + 1).sum ≤ topDoc ls := le_sum (List.mem_map_of_mem (f := fun l : List Posting => (l.map fun p => p.doc + 1).sum) hl)
  omega

theorem occAt_some {l : List Posting} {d : Int} {x : Int} (h : x ∈ occAt l d) : ∃ p ∈ l, (p.doc : Int) = d ∧ x ∈ p.occ := by
  unfold occAt at h
  cases hf : l.find? (fun p => decide ((p.doc : Int) = d)) with
  | none => rw [hf] at h; cases h
  | some p =>
    rw [hf] at h
    have h1 := List.find?_some hf
    have h2 := List.mem_of_find?_eq_some hf
    exact ⟨p, h2, by simpa using h1, h⟩

theorem mem_union {ls : List (List Posting)} {p : Posting} :
    p ∈ union ls ↔ occsIn ls p.doc ≠ [] ∧ p = ⟨p.doc, (occsIn ls p.doc).length, sortInts (occsIn ls p.doc)⟩ := by
  unfold union
  rw [List.mem_map]
  constructor
  · rintro ⟨d, hd, rfl⟩
    rw [List.mem_filter] at hd
    refine ⟨?_, rfl⟩
    intro h
    simp only [] at h
    rw [h] at hd
    simp at hd
  · rintro ⟨h1, h2⟩
    refine ⟨p.doc, ?_, h2.symm⟩
    rw [List.mem_filter]
    obtain ⟨x, hx⟩ := List.exists_mem_of_ne_nil _ h1
    refine ⟨?_, ?_⟩
    · unfold occsIn at hx
      rw [List.mem_flatMap] at hx
      obtain ⟨l, hl, hx⟩ := hx
      obtain ⟨q, hq, hqd, _⟩ := occAt_some hx
      rw [List.mem_range]
      have := doc_lt_top hl hq
      omega
    · cases ho : occsIn ls p.doc with
      | nil => exact absurd ho h1
      | cons a b => rfl

theorem union_asc (ls : List (List Posting)) : (union ls).Pairwise fun a b => a.doc < b.doc := by
  unfold union
  rw [List.pairwise_map]
  exact List.Pairwise.sublist (List.filter_sublist) (List.pairwise_lt_range (n := topDoc ls))

theorem docsOK_union {ls : List (List Posting)} : DocsOK (union ls) where
  asc := union_asc ls
  freq := by
    intro p hp
    obtain ⟨h1, h2⟩ := mem_union.1 hp
    rw [h2]
    simp only []
    exact ⟨(sortInts_perm _).length_eq.symm, List.length_pos_iff.2 h1⟩
  occ := by
    intro p hp
    obtain ⟨h1, h2⟩ := mem_union.1 hp
    rw [h2]
    exact sortInts_sorted _

theorem asc_ext {a b : List Posting} (ha : a.Pairwise fun a b => a.doc < b.doc) (hb : b.Pairwise fun a b => a.doc < b.doc) (h : ∀ p, p ∈ a ↔ p ∈ b) : a = b := by
  have na : a.Nodup := ha.imp (fun h e => by rw [e] at h; omega)
  have nb : b.Nodup := hb.imp (fun h e => by rw [e] at h; omega)
  exact List.Perm.eq_of_pairwise (le := fun a b => a.doc < b.doc) (fun _ _ _ _ h1 h2 => by omega) ha hb ((List.perm_ext_iff_of_nodup na nb).2 h)

/-- The union depends only on the positions of each document. -/
theorem union_eq {a b : List (List Posting)} (h : ∀ d : Int, (occsIn a d).Perm (occsIn b d)) : union a = union b := by
  refine asc_ext (union_asc a) (union_asc b) fun p => ?_
  rw [mem_union, mem_union, (h p.doc).length_eq, sortInts_eq (h p.doc)]
  constructor
  · rintro ⟨h1, h2⟩; exact ⟨fun hn => h1 (by have := h p.doc; rw [hn] at this; exact this.eq_nil), h2⟩
  · rintro ⟨h1, h2⟩; exact ⟨fun hn => h1 (by have := h p.doc; rw [hn] at this; exact this.symm.eq_nil), h2⟩

theorem occsIn_perm {a b : List (List Posting)} (h : a.Perm b) (d : Int) : (occsIn a d).Perm (occsIn b d) := h.flatMap_right _

/-! ### The sub-enumerators -/

/-- The documents of a sub-enumerator, with the current one. -/
def subDocs (t : Tde) : List Posting := ⟨t.doc.toNat, t.freq.toNat, t.left⟩ :: t.rest

/-- A sub-enumerator is on a document whose positions have not been read. -/
structure SubOK (t : Tde) : Prop where
  doc : 0 ≤ t.doc
  freq : 0 ≤ t.freq
  docs : DocsOK (subDocs t)

theorem tdpeLt_strictWeak : StrictWeak tdpeLt where
  asymm a b h := by simp only [tdpeLt, decide_eq_true_eq] at h; simp only [tdpeLt, decide_eq_false_iff_not]; omega
  negTrans a b c h1 h2 := by simp only [tdpeLt, decide_eq_false_iff_not] at *; omega

theorem subOK_next {p : Posting} {l : List Posting} (h : DocsOK (p :: l)) : SubOK ⟨p.doc, p.freq, p.occ, l⟩ ∧ subDocs ⟨p.doc, p.freq, p.occ, l⟩ = p :: l := by
  have : subDocs ⟨p.doc, p.freq, p.occ, l⟩ = p :: l := by simp [subDocs]
  exact ⟨⟨by simp, by simp, by rw [this]; exact h⟩, this⟩

theorem docsOK_sublist {a b : List Posting} (h : DocsOK b) (hs : a.Sublist b) : DocsOK a :=
  ⟨h.asc.sublist hs, fun p hp => h.freq p (hs.mem hp), fun p hp => h.occ p (hs.mem hp)⟩

theorem occAt_cons {p : Posting} {l : List Posting} {d : Int} (h : DocsOK (p :: l)) : occAt (p :: l) d = if (p.doc : Int) = d then p.occ else occAt l d := by
  unfold occAt
  by_cases hd : (p.doc : Int) = d
  · rw [if_pos hd, List.find?_cons_of_pos (by simpa using hd)]
  · rw [if_neg hd, List.find?_cons_of_neg (by simpa using hd)]

theorem occAt_lt {l : List Posting} {d : Int} (h : ∀ p ∈ l, d < (p.doc : Int)) : occAt l d = [] := by
  cases ho : occAt l d with
  | nil => rfl
  | cons x r =>
    obtain ⟨p, hp, hd, _⟩ := occAt_some (l := l) (d := d) (x := x) (by rw [ho]; exact List.mem_cons_self ..)
    have := h p hp
    omega

theorem occAt_ne_nil {l : List Posting} (h : DocsOK l) {p : Posting} (hp : p ∈ l) : occAt l p.doc ≠ [] := by
  rw [occAt_mem h.asc hp]
  have := h.freq p hp
  intro hn
  rw [hn, List.length_nil] at this
  omega

theorem occsIn_lt {ls : List (List Posting)} {d : Int} (h : ∀ l ∈ ls, ∀ p ∈ l, d < (p.doc : Int)) : occsIn ls d = [] := by
  unfold occsIn
  rw [List.flatMap_eq_nil_iff]
  intro l hl
  exact occAt_lt (h l hl)

theorem subDocs_ge {t : Tde} (h : SubOK t) : ∀ p ∈ subDocs t, t.doc ≤ (p.doc : Int) := by
  have ha := h.docs.asc
  intro p hp
  unfold subDocs at hp ha
  rcases List.mem_cons.1 hp with rfl | hp
  · have := h.doc; simp only []; omega
  · have := (List.pairwise_cons.1 ha).1 p hp
    simp only [] at this
    have := h.doc
    omega

theorem takePositions_all (t : Tde) : ∀ (l : List Int), t.left = l → takePositions l.length t = (l, { t with left := [] }) := by
  intro l
  induction l generalizing t with
  | nil => intro h; rw [List.length_nil, takePositions, ← h]
  | cons x l ih =>
    intro h
    rw [List.length_cons, takePositions]
    simp only [tdeNextPosition, h]
    rw [ih { t with left := l } rfl]

/-! ### Moving the top of the queue -/

/-- The top of the queue is replaced or removed. -/
theorem top_moved {q : PQ.PQ Tde} {t : Tde} {H : List Tde} (hq : PQ.Inv tdpeLt q) (hh : q.heap = t :: H) (r : Bool × Tde) :
    ∃ q', (if r.1 then PQ.down tdpeLt (q.heap.set 0 r.2) >>= fun h => .ok { q with heap := h } else PQ.pop tdpeLt q >>= fun x => .ok x.2) = .ok q' ∧
      PQ.Inv tdpeLt q' ∧ q'.heap.Perm (if r.1 then r.2 :: H else H) := by
  cases hr : r.1 with
  | true =>
    simp only [if_true]
    obtain ⟨h', h1, h2, h3⟩ := PQ.down_spec tdpeLt_strictWeak (q.heap.set 0 r.2) (Scorer.heap4_set hq.heap r.2)
    rw [h1, Res.ok_bind]
    have hset : q.heap.set 0 r.2 = r.2 :: H := by rw [hh]; rfl
    refine ⟨_, rfl, ⟨h2, ?_⟩, by rw [hset] at h3; exact h3⟩
    have := hq.mem
    simp only [h3.length_eq, List.length_set]
    exact this
  | false =>
    simp only [Bool.false_eq_true, if_false]
    obtain ⟨t', q', h1, h2, _, h3, h4, _⟩ := PQ.pop_spec tdpeLt_strictWeak q hq (by rw [hh]; simp)
    rw [h1, Res.ok_bind]
    refine ⟨q', rfl, h2, ?_⟩
    have : t' = t := by
      have : PQ.top q = some t := by rw [PQ.top, hh]; rfl
      rw [this] at h4; cases h4; rfl
    rw [this, hh] at h3
    exact h3.cons_inv

theorem top_min {q : PQ.PQ Tde} {t : Tde} (hq : PQ.Inv tdpeLt q) (ht : PQ.top q = some t) : ∀ x ∈ q.heap, t.doc ≤ x.doc := by
  intro x hx
  have := PQ.heap_top_min tdpeLt_strictWeak hq.heap t ht x hx
  simp only [tdpeLt, decide_eq_false_iff_not] at this
  omega

theorem top_cons {q : PQ.PQ Tde} {t : Tde} (ht : PQ.top q = some t) : ∃ H, q.heap = t :: H := by
  unfold PQ.top at ht
  cases hh : q.heap with
  | nil => rw [hh] at ht; cases ht
  | cons a H => rw [hh] at ht; simp at ht; subst ht; exact ⟨H, rfl⟩

/-- The lists of documents in the queue. -/
def lists (h : List Tde) : List (List Posting) := h.map subDocs

theorem occsIn_cons (l : List Posting) (ls : List (List Posting)) (d : Int) : occsIn (l :: ls) d = occAt l d ++ occsIn ls d := by
  unfold occsIn; rw [List.flatMap_cons]

theorem lists_perm {a b : List Tde} (h : a.Perm b) (d : Int) : (occsIn (lists a) d).Perm (occsIn (lists b) d) := occsIn_perm (h.map _) d

theorem heapLeft_perm {a b : List Tde} (h : a.Perm b) : heapLeft a = heapLeft b := (h.map _).sum_nat

/-- The next document of the top of the queue: the positions of the later documents stay. -/
theorem next_step {t : Tde} (h : SubOK t) (H : List Tde) (l : List Int) :
    let r := tdeNext { t with left := l }
    (∀ x ∈ (if r.1 then r.2 :: H else H), x ∈ H ∨ SubOK x ∧ t.doc < x.doc) ∧
    (∀ d, t.doc < d → (occsIn (lists (if r.1 then r.2 :: H else H)) d) = occsIn (lists (t :: H)) d) ∧
    occsIn (lists (if r.1 then r.2 :: H else H)) t.doc = occsIn (lists H) t.doc ∧ heapLeft (if r.1 then r.2 :: H else H) < heapLeft (t :: H) := by
  have hd0 := h.docs
  have hsub : subDocs t = ⟨t.doc.toNat, t.freq.toNat, t.left⟩ :: t.rest := rfl
  rw [hsub] at hd0
  have htd : ((t.doc.toNat : Nat) : Int) = t.doc := by have := h.doc; omega
  have hocc : ∀ d, t.doc < d → occAt (subDocs t) d = occAt t.rest d := by
    intro d hd
    rw [hsub, occAt_cons hd0, if_neg (by simp only [htd]; omega)]
  have hrest : DocsOK t.rest := docsOK_sublist hd0 (List.sublist_cons_self _ _)
  have hgt : ∀ p ∈ t.rest, t.doc < (p.doc : Int) := by
    intro p hp
    have := (List.pairwise_cons.1 hd0.asc).1 p hp
    simp only [] at this
    omega
  intro r
  cases hr : t.rest with
  | nil =>
    have hrr : r = (false, { t with left := [] }) := by show tdeNext _ = _; rw [tdeNext]; simp only [hr]
    rw [hrr]
    simp only [Bool.false_eq_true, if_false]
    refine ⟨fun x hx => .inl hx, fun d hd => ?_, trivial, ?_⟩
    · show _ = occsIn (subDocs t :: lists H) d
      rw [occsIn_cons, hocc d hd, hr]; rfl
    · simp [heapLeft]
  | cons p l' =>
    rw [hr] at hrest
    have hrr : r = (true, ⟨p.doc, p.freq, p.occ, l'⟩) := by show tdeNext _ = _; rw [tdeNext]; simp only [hr]
    rw [hrr]
    simp only [if_true]
    obtain ⟨k1, k2⟩ := subOK_next hrest
    refine ⟨fun x hx => ?_, fun d hd => ?_, ?_, ?_⟩
    · rcases List.mem_cons.1 hx with rfl | hx
      · exact .inr ⟨k1, hgt p (by rw [hr]; exact List.mem_cons_self ..)⟩
      · exact .inl hx
    · show occsIn (subDocs _ :: lists H) d = occsIn (subDocs t :: lists H) d
      rw [occsIn_cons, occsIn_cons, hocc d hd, hr, k2]
    · show occsIn (subDocs _ :: lists H) t.doc = _
      rw [occsIn_cons, k2, occAt_lt (by rw [← hr]; exact hgt)]; rfl
    · simp [heapLeft, hr]

/-- Jumping the top of the queue. -/
theorem skip_step {t : Tde} (h : SubOK t) (H : List Tde) {n : Int} (hn : t.doc < n) :
    let r := tdeSkipTo t n
    (∀ x ∈ (if r.1 then r.2 :: H else H), x ∈ H ∨ SubOK x) ∧
    (∀ d, n ≤ d → (occsIn (lists (if r.1 then r.2 :: H else H)) d) = occsIn (lists (t :: H)) d) ∧
    heapLeft (if r.1 then r.2 :: H else H) < heapLeft (t :: H) := by
  have hd0 := h.docs
  have hsub : subDocs t = ⟨t.doc.toNat, t.freq.toNat, t.left⟩ :: t.rest := rfl
  rw [hsub] at hd0
  have htd : ((t.doc.toNat : Nat) : Int) = t.doc := by have := h.doc; omega
  have hrest : DocsOK t.rest := docsOK_sublist hd0 (List.sublist_cons_self _ _)
  have hocc : ∀ d, n ≤ d → occAt (subDocs t) d = occAt (t.rest.dropWhile fun p => decide ((p.doc : Int) < n)) d := by
    intro d hd
    rw [hsub, occAt_cons hd0, if_neg (by simp only [htd]; omega)]
    unfold occAt
    have : ∀ l : List Posting, (l.dropWhile fun p => decide ((p.doc : Int) < n)).find? (fun p => decide ((p.doc : Int) = d)) = l.find? fun p => decide ((p.doc : Int) = d) := by
      intro l
      induction l with
      | nil => rfl
      | cons a l ih =>
        by_cases ha : (a.doc : Int) < n
        · rw [List.dropWhile_cons_of_pos (by simpa using ha), ih, List.find?_cons_of_neg (by simp; omega)]
        · rw [List.dropWhile_cons_of_neg (by simpa using ha)]
    rw [this]
  have hsl := List.dropWhile_sublist (p := fun p : Posting => decide ((p.doc : Int) < n)) (l := t.rest)
  intro r
  cases hr : t.rest.dropWhile (fun p => decide ((p.doc : Int) < n)) with
  | nil =>
    have hrr : r.1 = false := by show (tdeSkipTo t n).1 = _; rw [tdeSkipTo, tdeNext]; simp only [hr]
    rw [hrr]
    simp only [Bool.false_eq_true, if_false]
    refine ⟨fun x hx => .inl hx, fun d hd => ?_, ?_⟩
    · show _ = occsIn (subDocs t :: lists H) d
      rw [occsIn_cons, hocc d hd, hr]; rfl
    · simp [heapLeft]
  | cons p l' =>
    rw [hr] at hsl
    have hrr : r = (true, ⟨p.doc, p.freq, p.occ, l'⟩) := by show tdeSkipTo t n = _; rw [tdeSkipTo, tdeNext]; simp only [hr]
    rw [hrr]
    simp only [if_true]
    obtain ⟨k1, k2⟩ := subOK_next (docsOK_sublist hrest hsl)
    refine ⟨fun x hx => ?_, fun d hd => ?_, ?_⟩
    · rcases List.mem_cons.1 hx with rfl | hx
      · exact .inr k1
      · exact .inl hx
    · show occsIn (subDocs _ :: lists H) d = occsIn (subDocs t :: lists H) d
      rw [occsIn_cons, occsIn_cons, hocc d hd, hr, k2]
    · have := hsl.length_le
      simp [heapLeft] at this ⊢; omega

/-- `mtdpe_next`'s loop collects the positions of the document and leaves the later documents. -/
theorem mtdpeLoop_spec (d : Int) : ∀ (fuel : Nat) (q : PQ.PQ Tde) (t : Tde) (queue : List Int), heapLeft q.heap + 1 ≤ fuel → PQ.Inv tdpeLt q →
    (∀ x ∈ q.heap, SubOK x) → PQ.top q = some t → t.doc = d →
    ∃ q' queue', mtdpeLoop d fuel q t queue.length queue = .ok (q', queue'.length, queue') ∧ PQ.Inv tdpeLt q' ∧ (∀ x ∈ q'.heap, SubOK x ∧ d < x.doc) ∧
      (∀ x, d < x → (occsIn (lists q'.heap) x).Perm (occsIn (lists q.heap) x)) ∧ queue'.Perm (queue ++ occsIn (lists q.heap) d) ∧ heapLeft q'.heap < heapLeft q.heap := by
  intro fuel
  induction fuel with
  | zero => intro q t queue h; omega
  | succ n ih =>
    intro q t queue hf hq hok ht htd
    obtain ⟨H, hh⟩ := top_cons ht
    have hmin := top_min hq ht
    have hsub := hok t (by rw [hh]; exact List.mem_cons_self ..)
    have hfr := hsub.docs.freq ⟨t.doc.toNat, t.freq.toNat, t.left⟩ (List.mem_cons_self ..)
    simp only [] at hfr
    have hlen : ((queue.length : Int) + t.freq - queue.length).toNat = t.left.length := by
      have := hsub.freq
      omega
    rw [mtdpeLoop]
    simp only [hlen, takePositions_all t t.left rfl]
    obtain ⟨s1, s2, s3, s4⟩ := next_step hsub H []
    obtain ⟨q', k1, k2, k3⟩ := top_moved hq hh (tdeNext { t with left := [] })
    rw [k1, Res.ok_bind]
    rw [← hh] at s4
    have hfreq : (queue.length : Int) + t.freq = ((queue ++ t.left).length : Nat) := by
      have := hsub.freq
      rw [List.length_append]; omega
    have hok' : ∀ x ∈ q'.heap, SubOK x := by
      intro x hx
      rcases s1 x (k3.mem_iff.1 hx) with h1 | h1
      · exact hok x (by rw [hh]; exact List.mem_cons_of_mem _ h1)
      · exact h1.1
    have hocc' : ∀ x, d < x → (occsIn (lists q'.heap) x).Perm (occsIn (lists q.heap) x) := by
      intro x hx
      rw [hh, ← s2 x (by omega)]
      exact lists_perm k3 x
    have hleft' : heapLeft q'.heap < heapLeft q.heap := by rw [heapLeft_perm k3]; exact s4
    have hat : occAt (subDocs t) d = t.left := by
      have hd0 := hsub.docs
      unfold subDocs at hd0 ⊢
      have := hsub.doc
      rw [occAt_cons hd0, if_pos (by simp only []; omega)]
    have hq0 : (queue ++ t.left ++ occsIn (lists q'.heap) d).Perm (queue ++ occsIn (lists q.heap) d) := by
      rw [List.append_assoc]
      refine List.Perm.append_left _ ?_
      rw [hh]
      show List.Perm _ (occsIn (subDocs t :: lists H) d)
      rw [occsIn_cons, hat]
      refine List.Perm.append_left _ ?_
      have := lists_perm k3 t.doc
      rw [s3, htd] at this
      exact this
    cases ht' : PQ.top q' with
    | none =>
      have hnil : q'.heap = [] := by
        unfold PQ.top at ht'
        cases hq' : q'.heap with
        | nil => rfl
        | cons a b => rw [hq'] at ht'; cases ht'
      simp only []
      refine ⟨q', queue ++ t.left, by rw [hfreq], k2, by rw [hnil]; exact (fun _ h => nomatch h), hocc', ?_, hleft'⟩
      rw [hnil] at hq0
      have he : occsIn (lists []) d = [] := rfl
      rwa [he, List.append_nil] at hq0
    | some t' =>
      simp only []
      by_cases htd' : t'.doc = d
      · rw [if_pos htd', hfreq]
        obtain ⟨q2, queue2, m1, m2, m3, m4, m5, m6⟩ := ih q' t' (queue ++ t.left) (by omega) k2 hok' ht' htd'
        exact ⟨q2, queue2, m1, m2, m3, fun x hx => (m4 x hx).trans (hocc' x hx), m5.trans hq0, by omega⟩
      · rw [if_neg htd', hfreq]
        have hmin' := top_min k2 ht'
        have hge : d ≤ t'.doc := by
          obtain ⟨H', hh'⟩ := top_cons ht'
          rcases s1 t' (k3.mem_iff.1 (by rw [hh']; exact List.mem_cons_self ..)) with h1 | h1
          · have := hmin t' (by rw [hh]; exact List.mem_cons_of_mem _ h1); omega
          · omega
        have hgt : ∀ x ∈ q'.heap, SubOK x ∧ d < x.doc := fun x hx => ⟨hok' x hx, by have := hmin' x hx; omega⟩
        refine ⟨q', queue ++ t.left, rfl, k2, hgt, hocc', ?_, hleft'⟩
        have he : occsIn (lists q'.heap) d = [] := by
          refine occsIn_lt fun l hl p hp => ?_
          unfold lists at hl
          rw [List.mem_map] at hl
          obtain ⟨x, hx, rfl⟩ := hl
          have := subDocs_ge (hgt x hx).1 p hp
          have := (hgt x hx).2
          omega
        rwa [he, List.append_nil] at hq0

theorem mtdpeSkipLoop_spec (n : Int) : ∀ (fuel : Nat) (q : PQ.PQ Tde), heapLeft q.heap + 1 ≤ fuel → PQ.Inv tdpeLt q → (∀ x ∈ q.heap, SubOK x) →
    ∃ q', mtdpeSkipLoop n fuel q = .ok q' ∧ PQ.Inv tdpeLt q' ∧ (∀ x ∈ q'.heap, SubOK x ∧ n ≤ x.doc) ∧
      (∀ x, n ≤ x → (occsIn (lists q'.heap) x).Perm (occsIn (lists q.heap) x)) ∧ heapLeft q'.heap ≤ heapLeft q.heap := by
  intro fuel
  induction fuel with
  | zero => intro q h; omega
  | succ m ih =>
    intro q hf hq hok
    rw [mtdpeSkipLoop]
    cases ht : PQ.top q with
    | none =>
      have hnil : q.heap = [] := by
        unfold PQ.top at ht
        cases hq' : q.heap with
        | nil => rfl
        | cons a b => rw [hq'] at ht; cases ht
      exact ⟨q, rfl, hq, by rw [hnil]; exact (fun _ h => nomatch h), fun _ _ => .refl _, Nat.le_refl _⟩
    | some t =>
      obtain ⟨H, hh⟩ := top_cons ht
      have hmin := top_min hq ht
      simp only []
      by_cases hn : n > t.doc
      · rw [if_pos hn]
        have hsub := hok t (by rw [hh]; exact List.mem_cons_self ..)
        obtain ⟨s1, s2, s4⟩ := skip_step hsub H hn
        obtain ⟨q', k1, k2, k3⟩ := top_moved hq hh (tdeSkipTo t n)
        rw [k1, Res.ok_bind]
        rw [← hh] at s4
        have hleft' : heapLeft q'.heap < heapLeft q.heap := by rw [heapLeft_perm k3]; exact s4
        obtain ⟨q2, m1, m2, m3, m4, m5⟩ := ih q' (by omega) k2 (by
          intro x hx
          rcases s1 x (k3.mem_iff.1 hx) with h1 | h1
          · exact hok x (by rw [hh]; exact List.mem_cons_of_mem _ h1)
          · exact h1)
        refine ⟨q2, m1, m2, m3, fun x hx => (m4 x hx).trans ?_, by omega⟩
        rw [hh, ← s2 x hx]
        exact lists_perm k3 x
      · rw [if_neg hn]
        exact ⟨q, rfl, hq, fun x hx => ⟨hok x hx, by have := hmin x hx; omega⟩, fun _ _ => .refl _, Nat.le_refl _⟩

/-! ### The enumerator -/

structure MOk (m : Mtdpe) : Prop where
  inv : PQ.Inv tdpeLt m.pq
  subs : ∀ x ∈ m.pq.heap, SubOK x

def mview (m : Mtdpe) : Tde := ⟨m.doc, m.freq, m.queue.drop m.index, union (lists m.pq.heap)⟩

/-- The first document of the union. -/
theorem union_cons {q q' : PQ.PQ Tde} {t : Tde} (hq : PQ.Inv tdpeLt q) (hok : ∀ x ∈ q.heap, SubOK x) (ht : PQ.top q = some t)
    (hok' : ∀ x ∈ q'.heap, SubOK x ∧ t.doc < x.doc) (ho : ∀ x, t.doc < x → (occsIn (lists q'.heap) x).Perm (occsIn (lists q.heap) x)) :
    union (lists q.heap) = ⟨t.doc.toNat, (occsIn (lists q.heap) t.doc).length, sortInts (occsIn (lists q.heap) t.doc)⟩ :: union (lists q'.heap) := by
  obtain ⟨H, hh⟩ := top_cons ht
  have hmin := top_min hq ht
  have htm : t ∈ q.heap := by rw [hh]; exact List.mem_cons_self ..
  have hsub := hok t htm
  have htd : ((t.doc.toNat : Nat) : Int) = t.doc := by have := hsub.doc; omega
  have hlow : ∀ d, d < t.doc → occsIn (lists q.heap) d = [] := by
    intro d hd
    refine occsIn_lt fun l hl p hp => ?_
    unfold lists at hl
    rw [List.mem_map] at hl
    obtain ⟨x, hx, rfl⟩ := hl
    have := subDocs_ge (hok x hx) p hp
    have := hmin x hx
    omega
  have hlow' : ∀ d, d ≤ t.doc → occsIn (lists q'.heap) d = [] := by
    intro d hd
    refine occsIn_lt fun l hl p hp => ?_
    unfold lists at hl
    rw [List.mem_map] at hl
    obtain ⟨x, hx, rfl⟩ := hl
    have := subDocs_ge (hok' x hx).1 p hp
    have := (hok' x hx).2
    omega
  have hne : occsIn (lists q.heap) t.doc ≠ [] := by
    rw [hh]
    show occsIn (subDocs t :: lists H) t.doc ≠ []
    rw [occsIn_cons]
    have := occAt_ne_nil hsub.docs (p := ⟨t.doc.toNat, t.freq.toNat, t.left⟩) (List.mem_cons_self ..)
    simp only [htd] at this
    intro hn
    rw [List.append_eq_nil_iff] at hn
    exact this hn.1
  refine asc_ext (union_asc _) ?_ ?_
  · refine List.pairwise_cons.2 ⟨fun p hp => ?_, union_asc _⟩
    obtain ⟨h1, _⟩ := mem_union.1 hp
    simp only []
    apply Classical.byContradiction
    intro hn
    exact h1 (hlow' p.doc (by omega))
  · intro p
    rw [List.mem_cons, mem_union, mem_union]
    rcases Int.lt_trichotomy (p.doc : Int) t.doc with h | h | h
    · rw [hlow _ h, hlow' _ (by omega)]
      constructor
      · exact fun k => absurd rfl k.1
      · rintro (k | k)
        · have : p.doc = t.doc.toNat := by rw [k]
          omega
        · exact absurd rfl k.1
    · rw [h, hlow' _ (Int.le_refl _)]
      have hpd : p.doc = t.doc.toNat := by omega
      rw [hpd]
      constructor
      · exact fun k => .inl k.2
      · rintro (k | k)
        · exact ⟨hne, k⟩
        · exact absurd rfl k.1
    · have hp := ho _ h
      rw [hp.length_eq, sortInts_eq hp]
      constructor
      · rintro ⟨h1, h2⟩
        exact .inr ⟨fun hn => h1 (by rw [hn] at hp; exact hp.symm.eq_nil), h2⟩
      · rintro (k | ⟨h1, h2⟩)
        · have : p.doc = t.doc.toNat := by rw [k]
          omega
        · exact ⟨fun hn => h1 (by rw [hn] at hp; exact hp.eq_nil), h2⟩

theorem mtdpeNext_spec {m : Mtdpe} (h : MOk m) : (union (lists m.pq.heap) = [] → mtdpeNext m = .ok (false, m)) ∧
    ∀ p l, union (lists m.pq.heap) = p :: l → ∃ m', mtdpeNext m = .ok (true, m') ∧ MOk m' ∧ mview m' = ⟨p.doc, p.freq, p.occ, l⟩ ∧ heapLeft m'.pq.heap < heapLeft m.pq.heap := by
  cases ht : PQ.top m.pq with
  | none =>
    have hnil : m.pq.heap = [] := by
      unfold PQ.top at ht
      cases hq' : m.pq.heap with
      | nil => rfl
      | cons a b => rw [hq'] at ht; cases ht
    refine ⟨fun _ => by rw [mtdpeNext, ht], fun p l hu => ?_⟩
    rw [hnil] at hu
    cases hu
  | some t =>
    obtain ⟨q', queue', k1, k2, k3, k4, k5, k6⟩ := mtdpeLoop_spec t.doc (heapLeft m.pq.heap + 1) m.pq t [] (Nat.le_refl _) h.inv h.subs ht rfl
    have hu := union_cons h.inv h.subs ht k3 k4
    rw [List.nil_append] at k5
    obtain ⟨H, hh⟩ := top_cons ht
    have hsub := h.subs t (by rw [hh]; exact List.mem_cons_self ..)
    refine ⟨fun hn => (by rw [hu] at hn; cases hn), fun p l hp => ?_⟩
    rw [hu] at hp
    injection hp with hp1 hp2
    refine ⟨⟨q', t.doc, queue'.length, sortInts queue', 0⟩, ?_, ⟨k2, fun x hx => (k3 x hx).1⟩, ?_, k6⟩
    · rw [mtdpeNext, ht]
      simp only []
      have : mtdpeLoop t.doc (heapLeft m.pq.heap + 1) m.pq t 0 [] = .ok (q', (queue'.length : Int), queue') := k1
      rw [this, Res.ok_bind]
    · unfold mview
      simp only [List.drop_zero]
      rw [hp2, ← hp1]
      simp only [k5.length_eq, sortInts_eq k5]
      congr 1
      have := hsub.doc
      omega

theorem union_skip {q q' : PQ.PQ Tde} {n : Int} (hok' : ∀ x ∈ q'.heap, SubOK x ∧ n ≤ x.doc)
    (ho : ∀ x, n ≤ x → (occsIn (lists q'.heap) x).Perm (occsIn (lists q.heap) x)) :
    (union (lists q.heap)).dropWhile (fun p => decide ((p.doc : Int) < n)) = union (lists q'.heap) := by
  have hasc := union_asc (lists q.heap)
  have htw := List.takeWhile_append_dropWhile (p := fun p : Posting => decide ((p.doc : Int) < n)) (l := union (lists q.heap))
  have hlow' : ∀ d, d < n → occsIn (lists q'.heap) d = [] := by
    intro d hd
    refine occsIn_lt fun l hl p hp => ?_
    unfold lists at hl
    rw [List.mem_map] at hl
    obtain ⟨x, hx, rfl⟩ := hl
    have := subDocs_ge (hok' x hx).1 p hp
    have := (hok' x hx).2
    omega
  have hmem : ∀ p, p ∈ (union (lists q.heap)).dropWhile (fun p => decide ((p.doc : Int) < n)) ↔ p ∈ union (lists q.heap) ∧ n ≤ (p.doc : Int) := by
    intro p
    constructor
    · intro hp
      refine ⟨(List.dropWhile_sublist _).mem hp, ?_⟩
      have hdw : (union (lists q.heap)).dropWhile (fun p => decide ((p.doc : Int) < n)) ≠ [] := List.ne_nil_of_mem hp
      cases hd : (union (lists q.heap)).dropWhile (fun p => decide ((p.doc : Int) < n)) with
      | nil => exact absurd hd hdw
      | cons a l =>
        have ha := List.head?_dropWhile_not (fun p : Posting => decide ((p.doc : Int) < n)) (union (lists q.heap))
        rw [hd] at ha hp
        have hs := hasc.sublist (List.dropWhile_sublist (p := fun p : Posting => decide ((p.doc : Int) < n)))
        rw [hd] at hs
        simp at ha
        rcases List.mem_cons.1 hp with rfl | hp
        · exact ha
        · have := (List.pairwise_cons.1 hs).1 p hp
          omega
    · rintro ⟨h1, h2⟩
      rw [← htw] at h1
      rcases List.mem_append.1 h1 with h1 | h1
      · have := List.all_eq_true.1 (List.all_takeWhile (p := fun p : Posting => decide ((p.doc : Int) < n)) (l := union (lists q.heap))) p h1
        simp at this; omega
      · exact h1
  refine asc_ext (hasc.sublist (List.dropWhile_sublist _)) (union_asc _) fun p => ?_
  rw [hmem, mem_union, mem_union]
  by_cases hp : n ≤ (p.doc : Int)
  · have hpp := ho _ hp
    rw [hpp.length_eq, sortInts_eq hpp]
    constructor
    · rintro ⟨⟨h1, h2⟩, _⟩
      exact ⟨fun hn => h1 (by rw [hn] at hpp; exact hpp.symm.eq_nil), h2⟩
    · rintro ⟨h1, h2⟩
      exact ⟨⟨fun hn => h1 (by rw [hn] at hpp; exact hpp.eq_nil), h2⟩, hp⟩
  · constructor
    · exact fun h => absurd h.2 hp
    · exact fun h => absurd (hlow' _ (by omega)) h.1

theorem lawful_mtdpe : Lawful mtdpeOps MOk mview where
  next := by
    intro m h
    exact ⟨fun hn => ⟨m, (mtdpeNext_spec h).1 hn⟩, (mtdpeNext_spec h).2⟩
  skip := by
    intro m n h
    obtain ⟨q', k1, k2, k3, k4, k5⟩ := mtdpeSkipLoop_spec n (heapLeft m.pq.heap + 1) m.pq (Nat.le_refl _) h.inv h.subs
    have hu := union_skip (q := m.pq) k3 k4
    have hok' : MOk { m with pq := q' } := ⟨k2, fun x hx => (k3 x hx).1⟩
    have hun : mtdpeOps.skipTo m n = mtdpeNext { m with pq := q' } := by
      show mtdpeSkipTo m n = _
      rw [mtdpeSkipTo, k1, Res.ok_bind]
    rw [hun]
    show ((union (lists m.pq.heap)).dropWhile _ = [] → _) ∧ ∀ p l, (union (lists m.pq.heap)).dropWhile _ = p :: l → _
    rw [hu]
    refine ⟨fun hn => ⟨_, (mtdpeNext_spec hok').1 hn⟩, fun p l hp => ?_⟩
    obtain ⟨m', x1, x2, x3, x4⟩ := (mtdpeNext_spec hok').2 p l hp
    exact ⟨m', x1, x2, x3, Nat.lt_of_lt_of_le x4 k5⟩
  doc := fun _ => rfl
  freq := fun _ => rfl
  pos := by
    intro m x l h hx
    have hx' : m.queue.drop m.index = x :: l := hx
    have hg : m.queue[m.index]? = some x := by
      have := List.head?_drop (l := m.queue) (i := m.index)
      rw [hx'] at this; exact this.symm
    refine ⟨{ m with index := m.index + 1 }, ?_, ⟨h.inv, h.subs⟩, ?_, rfl⟩
    · show mtdpeNextPosition m = _
      rw [mtdpeNextPosition, hg]; rfl
    · unfold mview
      simp only []
      congr 1
      rw [← List.tail_drop, hx']; rfl

theorem pushAll_spec : ∀ (ls : List (List Posting)) (q : PQ.PQ Tde), (∀ l ∈ ls, DocsOK l) → PQ.Inv tdpeLt q → (∀ x ∈ q.heap, SubOK x) →
    ∃ q', mtdpeNew.push ls q = .ok q' ∧ PQ.Inv tdpeLt q' ∧ (∀ x ∈ q'.heap, SubOK x) ∧ ∀ d, (occsIn (lists q'.heap) d).Perm (occsIn ls d ++ occsIn (lists q.heap) d) := by
  intro ls
  induction ls with
  | nil => intro q _ hq hok; exact ⟨q, rfl, hq, hok, fun d => .refl _⟩
  | cons ps ls ih =>
    intro q hd hq hok
    have hps := hd ps (List.mem_cons_self ..)
    rw [mtdpeNew.push]
    cases ps with
    | nil =>
      obtain ⟨q', k1, k2, k3, k4⟩ := ih q (fun l hl => hd l (List.mem_cons_of_mem _ hl)) hq hok
      refine ⟨q', ?_, k2, k3, fun d => ?_⟩
      · simp only [Tde.new, tdeNext, Bool.false_eq_true, if_false]; exact k1
      · rw [occsIn_cons]; exact k4 d
    | cons p l =>
      obtain ⟨s1, s2⟩ := subOK_next hps
      obtain ⟨q1, p1, p2, _, p3⟩ := PQ.push_spec tdpeLt_strictWeak q ⟨p.doc, p.freq, p.occ, l⟩ hq
      obtain ⟨q', k1, k2, k3, k4⟩ := ih q1 (fun l hl => hd l (List.mem_cons_of_mem _ hl)) p2 (by
        intro x hx
        rcases List.mem_cons.1 (p3.mem_iff.1 hx) with rfl | hx
        · exact s1
        · exact hok x hx)
      refine ⟨q', ?_, k2, k3, fun d => ?_⟩
      · simp only [Tde.new, tdeNext, if_true, p1, Res.ok_bind]; exact k1
      · refine (k4 d).trans ?_
        rw [occsIn_cons]
        have h1 := lists_perm p3 d
        have h2 : occsIn (lists (⟨p.doc, p.freq, p.occ, l⟩ :: q.heap)) d = occAt (p :: l) d ++ occsIn (lists q.heap) d := by
          show occsIn (subDocs _ :: lists q.heap) d = _
          rw [occsIn_cons, s2]
        rw [h2] at h1
        refine (List.Perm.append_left _ h1).trans ?_
        rw [← List.append_assoc, List.append_assoc (occAt (p :: l) d)]
        rw [List.append_assoc]
        refine List.perm_append_comm.trans ?_
        rw [List.append_assoc]
        refine List.Perm.append_left _ List.perm_append_comm

theorem mtdpeNew_spec {ls : List (List Posting)} (h : ∀ l ∈ ls, DocsOK l) : ∃ m, mtdpeNew ls = .ok m ∧ MOk m ∧ (mview m).rest = union ls := by
  obtain ⟨q', k1, k2, k3, k4⟩ := pushAll_spec ls (PQ.new ls.length) h (PQ.inv_new _ _) (fun _ hx => nomatch hx)
  refine ⟨⟨q', 0, 0, [], 0⟩, by rw [mtdpeNew, k1, Res.ok_bind], ⟨k2, k3⟩, union_eq fun d => ?_⟩
  have := k4 d
  have he : occsIn (lists (PQ.new ls.length : PQ.PQ Tde).heap) d = [] := rfl
  rwa [he, List.append_nil] at this

/-! ### Either -/

def anyOk : Tde ⊕ Mtdpe → Prop
  | .inl _ => True
  | .inr m => MOk m

def anyView : Tde ⊕ Mtdpe → Tde
  | .inl t => t
  | .inr m => mview m

theorem lawful_any : Lawful anyOps anyOk anyView where
  next := by
    intro e h
    cases e with
    | inl t =>
      obtain ⟨a, b⟩ := lawful_tde.next (e := t) trivial
      refine ⟨fun hn => ?_, fun p l hp => ?_⟩
      · obtain ⟨e', k⟩ := a hn
        have k' : tdeNext t = (false, e') := by injection k
        exact ⟨.inl e', by show Res.ok _ = _; rw [k']⟩
      · obtain ⟨e', k, k2, k3, k4⟩ := b p l hp
        have k' : tdeNext t = (true, e') := by injection k
        exact ⟨.inl e', by show Res.ok _ = _; rw [k'], trivial, k3, k4⟩
    | inr m =>
      obtain ⟨a, b⟩ := lawful_mtdpe.next (e := m) h
      refine ⟨fun hn => ?_, fun p l hp => ?_⟩
      · obtain ⟨e', k⟩ := a hn
        exact ⟨.inr e', by show (mtdpeNext m >>= _) = _; rw [show mtdpeNext m = _ from k]; rfl⟩
      · obtain ⟨e', k, k2, k3, k4⟩ := b p l hp
        exact ⟨.inr e', by show (mtdpeNext m >>= _) = _; rw [show mtdpeNext m = _ from k]; rfl, k2, k3, k4⟩
  skip := by
    intro e n h
    cases e with
    | inl t =>
      obtain ⟨a, b⟩ := lawful_tde.skip (e := t) n trivial
      refine ⟨fun hn => ?_, fun p l hp => ?_⟩
      · obtain ⟨e', k⟩ := a hn
        have k' : tdeSkipTo t n = (false, e') := by injection k
        exact ⟨.inl e', by show Res.ok _ = _; rw [k']⟩
      · obtain ⟨e', k, k2, k3, k4⟩ := b p l hp
        have k' : tdeSkipTo t n = (true, e') := by injection k
        exact ⟨.inl e', by show Res.ok _ = _; rw [k'], trivial, k3, k4⟩
    | inr m =>
      obtain ⟨a, b⟩ := lawful_mtdpe.skip (e := m) n h
      refine ⟨fun hn => ?_, fun p l hp => ?_⟩
      · obtain ⟨e', k⟩ := a hn
        exact ⟨.inr e', by show (mtdpeSkipTo m n >>= _) = _; rw [show mtdpeSkipTo m n = _ from k]; rfl⟩
      · obtain ⟨e', k, k2, k3, k4⟩ := b p l hp
        exact ⟨.inr e', by show (mtdpeSkipTo m n >>= _) = _; rw [show mtdpeSkipTo m n = _ from k]; rfl, k2, k3, k4⟩
  doc := by intro e h; cases e <;> rfl
  freq := by intro e h; cases e <;> rfl
  pos := by
    intro e x l h hx
    cases e with
    | inl t =>
      obtain ⟨e', k, k2, k3, k4⟩ := lawful_tde.pos (e := t) trivial hx
      have k' : tdeNextPosition t = (x, e') := by injection k
      exact ⟨.inl e', by show Res.ok _ = _; rw [k'], trivial, k3, k4⟩
    | inr m =>
      obtain ⟨e', k, k2, k3, k4⟩ := lawful_mtdpe.pos (e := m) h hx
      exact ⟨.inr e', by show (mtdpeNextPosition m >>= _) = _; rw [show mtdpeNextPosition m = _ from k]; rfl, k2, k3, k4⟩

end Ferret.Phrase
