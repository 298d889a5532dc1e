import Verif.Model.MultiTerm
import Verif.Lemmas.Walk
import Verif.Lemmas.PriorityQueue
import Verif.Lemmas.ScorerDis
import Verif.Lemmas.BoolQuery
import Verif.Spec.MultiTerm

/-! The scorer of a query for many terms. -/

namespace Ferret.MTerm
open Ferret.Scorer Ferret.Spec

variable {S : Type}

/-- What a wrapper has not read. -/
def rest (t : Tdew S) : List (Int × Nat) := t.buf.drop (t.pointer + 1) ++ t.tde

/-- The same with the current document. -/
def stream (t : Tdew S) : List (Int × Nat) := (t.doc, t.freq) :: rest t

/-- Frequencies in document `d`, with the boost. -/
def ofList (l : List (Int × Nat)) (b : S) (d : Int) : List (Nat × S) := (l.filter fun e => decide (e.1 = d)).map fun e => (e.2, b)

def qat (h : List (Tdew S)) (d : Int) : List (Nat × S) := h.flatMap fun t => ofList (stream t) t.boost d
def rat (h : List (Tdew S)) (d : Int) : List (Nat × S) := h.flatMap fun t => ofList (rest t) t.boost d
def fat (full : List (List (Int × Nat) × S)) (d : Int) : List (Nat × S) := full.flatMap fun x => ofList x.1 x.2 d

def Up (l : List (Int × Nat)) : Prop := l.Pairwise fun a b => a.1 < b.1

theorem tdew_next (t : Tdew S) :
    match rest t with
    | [] => ∃ t', tdewNext t = .ok (false, t') ∧ t'.doc = t.doc
    | e :: r => ∃ t', tdewNext t = .ok (true, t') ∧ stream t' = e :: r ∧ t'.boost = t.boost := by
  unfold stream rest tdewNext
  simp only []
  by_cases hp : t.pointer + 1 ≥ t.buf.length
  · rw [if_pos hp, List.drop_eq_nil_of_le hp, List.nil_append]
    cases ht : t.tde with
    | nil => exact ⟨_, rfl, rfl⟩
    | cons e r =>
      refine ⟨_, rfl, ?_, rfl⟩
      simp only [Nat.zero_add, List.take_succ_cons, List.drop_succ_cons, List.drop_zero, List.take_append_drop]
  · rw [if_neg hp]
    have hlt : t.pointer + 1 < t.buf.length := by omega
    have hdrop := List.drop_eq_getElem_cons hlt
    have hget := List.getElem?_eq_getElem hlt
    generalize t.buf[t.pointer + 1] = e at hdrop hget
    rw [hdrop, hget]
    exact ⟨_, rfl, rfl, rfl⟩

theorem tdew_skip (t : Tdew S) (n : Int) :
    match (rest t).dropWhile (fun e => e.1 < n) with
    | [] => ∃ t', tdewSkipTo t n = .ok (false, t') ∧ t'.doc = t.doc ∧ rest t' = [] ∧ t'.boost = t.boost
    | e :: r => ∃ t', tdewSkipTo t n = .ok (true, t') ∧ stream t' = e :: r ∧ t'.boost = t.boost := by
  unfold stream rest tdewSkipTo
  rcases tscScan_spec t.buf n (t.buf.length + 1) t.pointer (by omega) with ⟨q, e, sk, k1, k2, k3, k4, k5⟩ | ⟨q, k1, k2, k3⟩
  · rw [k1, k4, List.append_assoc, dropWhile_append_all k5, List.cons_append,
      List.dropWhile_cons_of_neg (by simp; omega)]
    simp only [k2]
    exact ⟨_, rfl, rfl, rfl⟩
  · rw [k1, dropWhile_append_all k3]
    simp only []
    cases hd : t.tde.dropWhile (fun e => decide (e.1 < n)) with
    | nil => exact ⟨_, rfl, rfl, by simp [k2], rfl⟩
    | cons e r => exact ⟨_, rfl, by simp, rfl⟩

theorem tdewLt_weak : StrictWeak (tdewLt (S := S)) where
  asymm a b h := by unfold tdewLt at *; simp only [decide_eq_true_eq, decide_eq_false_iff_not] at *; omega
  negTrans a b c h1 h2 := by unfold tdewLt at *; simp only [decide_eq_false_iff_not] at *; omega

theorem at_cons {α : Type} (a b : α) (l : List α) (k : Nat) (hk : 2 ≤ k) : PQ.at? (a :: l) k = PQ.at? (b :: l) k := by
  unfold PQ.at?
  rw [if_neg (by omega), if_neg (by omega)]
  obtain ⟨j, rfl⟩ : ∃ j, k = j + 2 := ⟨k - 2, by omega⟩
  rfl

theorem isHeap_top {t t' : Tdew S} {l : List (Tdew S)} (h : PQ.IsHeap tdewLt (t :: l)) (e : t'.doc = t.doc) : PQ.IsHeap tdewLt (t' :: l) := by
  intro k a b hk ha hb
  rw [at_cons t' t l k hk] at ha
  by_cases hk2 : 2 ≤ k / 2
  · rw [at_cons t' t l _ hk2] at hb
    exact h k a b hk ha hb
  · have h1 : k / 2 = 1 := by omega
    have hb' : b = t' := by rw [h1] at hb; simpa [PQ.at?] using hb.symm
    subst hb'
    have := h k a t hk ha (by rw [h1]; rfl)
    unfold tdewLt at *
    rw [e]; exact this

theorem settle_true {q : PQ.PQ (Tdew S)} {t : Tdew S} {l : List (Tdew S)} (hq : PQ.Inv tdewLt q) (hh : q.heap = t :: l) (t' : Tdew S) :
    ∃ q', settle q l (true, t') = .ok q' ∧ PQ.Inv tdewLt q' ∧ q'.heap.Perm (t' :: l) := by
  have hheap := hq.heap
  rw [hh] at hheap
  obtain ⟨r, h1, h2, h3⟩ := PQ.down_spec tdewLt_weak (t' :: l) (by
    intro k a b hk ha hb
    rw [at_cons t' t l k (by omega)] at ha
    rw [at_cons t' t l _ (by omega)] at hb
    exact hheap k a b (by omega) ha hb)
  refine ⟨{ q with heap := r }, by simp only [settle, if_true, h1, Res.ok_bind], ⟨h2, ?_⟩, h3⟩
  have := hq.mem
  rw [hh] at this
  show r.length < q.memCapa
  rw [h3.length_eq]; exact this

theorem settle_false {q : PQ.PQ (Tdew S)} {t : Tdew S} {l : List (Tdew S)} (hq : PQ.Inv tdewLt q) (hh : q.heap = t :: l) (t' : Tdew S) (hd : t'.doc = t.doc) :
    ∃ q', settle q l (false, t') = .ok q' ∧ PQ.Inv tdewLt q' ∧ q'.heap.Perm l := by
  have hheap := hq.heap
  have hmem := hq.mem
  rw [hh] at hheap hmem
  obtain ⟨x, q', h1, h2, -, h4, h5, -⟩ := PQ.pop_spec tdewLt_weak { q with heap := t' :: l } ⟨isHeap_top hheap hd, hmem⟩ (by simp)
  refine ⟨q', by simp only [settle, if_neg (by decide : ¬ (false = true)), h1, Res.ok_bind], h2, ?_⟩
  have : x = t' := by simpa [PQ.top] using h5.symm
  subst this
  exact (List.perm_cons _).1 h4

theorem ofList_nil_of {l : List (Int × Nat)} {b : S} {d : Int} (h : ∀ e ∈ l, e.1 ≠ d) : ofList l b d = [] := by
  unfold ofList
  rw [List.filter_eq_nil_iff.2 (fun e he => by simpa using h e he)]; rfl

theorem ofList_cons_ne {e : Int × Nat} {l : List (Int × Nat)} {b : S} {d : Int} (h : e.1 ≠ d) : ofList (e :: l) b d = ofList l b d := by
  unfold ofList
  rw [List.filter_cons_of_neg (by simpa using h)]

theorem ofList_cons_eq {e : Int × Nat} {l : List (Int × Nat)} {b : S} {d : Int} (h : e.1 = d) : ofList (e :: l) b d = (e.2, b) :: ofList l b d := by
  unfold ofList
  rw [List.filter_cons_of_pos (by simpa using h)]; rfl

theorem ofList_dropWhile {l : List (Int × Nat)} {b : S} {n d : Int} (hd : n ≤ d) : ofList (l.dropWhile fun e => e.1 < n) b d = ofList l b d := by
  induction l with
  | nil => rfl
  | cons e l ih =>
    by_cases h : e.1 < n
    · rw [List.dropWhile_cons_of_pos (by simpa using h), ih, ofList_cons_ne (by omega)]
    · rw [List.dropWhile_cons_of_neg (by simpa using h)]

theorem up_dropWhile {l : List (Int × Nat)} (h : Up l) (n : Int) : Up (l.dropWhile fun e => e.1 < n) := h.sublist (List.dropWhile_sublist _)

theorem qat_perm {h h' : List (Tdew S)} (p : h.Perm h') (d : Int) : (qat h d).Perm (qat h' d) := p.flatMap_right _

theorem leftOf_perm {h h' : List (Tdew S)} (p : h.Perm h') : leftOf h = leftOf h' := (p.map _).sum_nat

theorem qat_cons (t : Tdew S) (h : List (Tdew S)) (d : Int) : qat (t :: h) d = ofList (stream t) t.boost d ++ qat h d := List.flatMap_cons

theorem leftOf_cons (t : Tdew S) (h : List (Tdew S)) : leftOf (t :: h) = (rest t).length + 1 + leftOf h := by
  unfold leftOf; rw [List.map_cons, List.sum_cons]; rfl

theorem stream_doc {t : Tdew S} {e : Int × Nat} {r : List (Int × Nat)} (h : stream t = e :: r) : t.doc = e.1 ∧ t.freq = e.2 ∧ rest t = r := by
  unfold stream at h
  injection h with h1 h2
  exact ⟨by rw [← h1], by rw [← h1], h2⟩

theorem tfOf_ok (tf : Nat → S) (f : Nat) : tfOf tf f = .ok (tf f) := by
  unfold tfOf
  split
  · rename_i h
    rw [List.getElem?_map, List.getElem?_range h]; rfl
  · rfl

/-- The sum as the code makes it. -/
def addUp (A : Arith S) (tf : Nat → S) (acc : S) (l : List (Nat × S)) : S := l.foldl (fun a x => A.add a (A.mul (tf x.1) x.2)) acc

theorem qat_nil_of {h : List (Tdew S)} {d : Int} (hs : ∀ t ∈ h, Up (stream t) ∧ d < t.doc) : qat h d = [] := by
  unfold qat
  rw [List.flatMap_eq_nil_iff]
  intro t ht
  obtain ⟨h1, h2⟩ := hs t ht
  refine ofList_nil_of fun e he => ?_
  rcases List.mem_cons.1 he with rfl | he
  · show t.doc ≠ d; omega
  · have := (List.pairwise_cons.1 h1).1 e he
    simp only at this; omega

/-- The loops of next and explain. -/
theorem go_spec (A : Arith S) (tf : Nat → S) (cur : Int) : ∀ (fuel : Nat) (q : PQ.PQ (Tdew S)) (acc : S), PQ.Inv tdewLt q → (∀ t ∈ q.heap, Up (stream t) ∧ cur ≤ t.doc) → leftOf q.heap < fuel →
    ∃ acc' q' L, sumGo A tf cur fuel q acc = .ok (acc', q') ∧ explGo A tf cur fuel q acc = .ok (acc', q') ∧ PQ.Inv tdewLt q' ∧ (∀ t ∈ q'.heap, Up (stream t) ∧ cur < t.doc) ∧
      (∀ d, cur < d → (qat q'.heap d).Perm (qat q.heap d)) ∧ L.Perm (qat q.heap cur) ∧ acc' = addUp A tf acc L ∧ leftOf q'.heap + L.length ≤ leftOf q.heap := by
  intro fuel
  induction fuel with
  | zero => intro q acc _ _ h; omega
  | succ fuel ih =>
    intro q acc hq hs hf
    rw [sumGo, explGo]
    cases hh : q.heap with
    | nil => exact ⟨acc, q, [], rfl, rfl, hq, (fun t ht => by rw [hh] at ht; cases ht), (fun d _ => by rw [hh]), .refl _, rfl, by rw [hh]; exact Nat.le_refl _⟩
    | cons t l =>
      simp only []
      have hs' := hs
      rw [hh] at hs' hf
      by_cases ht : t.doc = cur
      · rw [if_pos ht, if_pos ht, tfOf_ok, Res.ok_bind]
        obtain ⟨u1, u2⟩ := List.pairwise_cons.1 (hs' t (List.mem_cons_self ..)).1
        have key : ∃ r q2, tdewNext t = .ok r ∧ settle q l r = .ok q2 ∧ PQ.Inv tdewLt q2 ∧ (∀ t ∈ q2.heap, Up (stream t) ∧ cur ≤ t.doc) ∧
            (∀ d, cur < d → (qat q2.heap d).Perm (qat (t :: l) d)) ∧ ((t.freq, t.boost) :: qat q2.heap cur).Perm (qat (t :: l) cur) ∧ leftOf q2.heap + 1 ≤ leftOf (t :: l) := by
          have hn := tdew_next t
          have hcur : ofList (stream t) t.boost cur = [(t.freq, t.boost)] := by
            unfold stream
            rw [ofList_cons_eq ht, ofList_nil_of (fun e he => by have := u1 e he; simp only at this; omega)]
          cases hr : rest t with
          | nil =>
            rw [hr] at hn
            obtain ⟨t', n1, n2⟩ := hn
            obtain ⟨q2, s1, s2, s3⟩ := settle_false hq hh t' n2
            refine ⟨_, q2, n1, s1, s2, fun x hx => hs' x (List.mem_cons_of_mem _ (s3.mem_iff.1 hx)), fun d hd => ?_, ?_, ?_⟩
            · refine (qat_perm s3 d).trans ?_
              rw [qat_cons]
              unfold stream
              rw [ofList_cons_ne (by show t.doc ≠ d; omega), hr]
              exact .refl _
            · rw [qat_cons, hcur]
              exact (qat_perm s3 cur).cons _
            · rw [leftOf_perm s3, leftOf_cons]; omega
          | cons e r =>
            rw [hr] at hn
            obtain ⟨t', n1, n2, n3⟩ := hn
            obtain ⟨d1, d2, d3⟩ := stream_doc n2
            obtain ⟨q2, s1, s2, s3⟩ := settle_true hq hh t'
            have hup : Up (stream t') := by rw [n2, ← hr]; exact u2
            have hlt : cur < t'.doc := by
              have := u1 e (by rw [hr]; exact List.mem_cons_self ..)
              simp only at this
              omega
            refine ⟨_, q2, n1, s1, s2, fun x hx => ?_, fun d hd => ?_, ?_, ?_⟩
            · rcases List.mem_cons.1 (s3.mem_iff.1 hx) with rfl | hx
              · exact ⟨hup, by omega⟩
              · exact hs' x (List.mem_cons_of_mem _ hx)
            · refine (qat_perm s3 d).trans ?_
              have h0 : ofList (stream t) t.boost d = ofList (rest t) t.boost d := ofList_cons_ne (by show t.doc ≠ d; omega)
              rw [qat_cons, qat_cons, n2, n3, h0, hr]
            · rw [qat_cons, hcur]
              refine ((qat_perm s3 cur).cons _).trans ?_
              rw [qat_cons, ofList_nil_of (l := stream t') (fun x hx => ?_)]
              · exact .refl _
              · rcases List.mem_cons.1 hx with rfl | hx
                · show t'.doc ≠ cur; omega
                · have := (List.pairwise_cons.1 hup).1 x hx
                  simp only at this; omega
            · rw [leftOf_perm s3, leftOf_cons, leftOf_cons, hr, d3, List.length_cons]; omega
        obtain ⟨r, q2, k1, k2, k3, k4, k5, k6, k7⟩ := key
        simp only [k1, Res.ok_bind, k2]
        obtain ⟨acc', q', L, i1, i2, i3, i4, i5, i6, i7, i8⟩ := ih q2 (A.add acc (A.mul (tf t.freq) t.boost)) k3 k4 (by omega)
        refine ⟨acc', q', (t.freq, t.boost) :: L, i1, i2, i3, i4, fun d hd => (i5 d hd).trans (k5 d hd), (i6.cons _).trans k6, i7, ?_⟩
        rw [List.length_cons]; omega
      · rw [if_neg ht, if_neg ht]
        have hmin := PQ.heap_top_min tdewLt_weak hq.heap t (by rw [hh]; rfl)
        have hall : ∀ x ∈ q.heap, Up (stream x) ∧ cur < x.doc := by
          intro x hx
          have h1 := hmin x hx
          unfold tdewLt at h1
          have h2 := (hs t (by rw [hh]; exact List.mem_cons_self ..)).2
          have h3 := decide_eq_false_iff_not.1 h1
          exact ⟨(hs x hx).1, by omega⟩
        refine ⟨acc, q, [], rfl, rfl, hq, hall, fun d _ => by rw [hh], ?_, rfl, ?_⟩
        · rw [← hh, qat_nil_of hall]
        · rw [hh]; exact Nat.le_refl _

theorem adv_spec (n : Int) : ∀ (fuel : Nat) (q : PQ.PQ (Tdew S)), PQ.Inv tdewLt q → (∀ t ∈ q.heap, Up (stream t)) → leftOf q.heap < fuel →
    ∃ q', advGo n fuel q = .ok q' ∧ PQ.Inv tdewLt q' ∧ (∀ t ∈ q'.heap, Up (stream t) ∧ n ≤ t.doc) ∧ ((∀ t ∈ q.heap, n ≤ t.doc) → q' = q) ∧ (∀ d, n ≤ d → (qat q'.heap d).Perm (qat q.heap d)) ∧
      leftOf q'.heap ≤ leftOf q.heap := by
  intro fuel
  induction fuel with
  | zero => intro q _ _ h; omega
  | succ fuel ih =>
    intro q hq hs hf
    rw [advGo]
    cases hh : q.heap with
    | nil => exact ⟨q, rfl, hq, (fun t ht => by rw [hh] at ht; cases ht), fun _ => rfl, (fun d _ => by rw [hh]), by rw [hh]; exact Nat.le_refl _⟩
    | cons t l =>
      simp only []
      have hs' := hs
      rw [hh] at hs' hf
      by_cases ht : n > t.doc
      · rw [if_pos ht]
        obtain ⟨u1, u2⟩ := List.pairwise_cons.1 (hs' t (List.mem_cons_self ..))
        have key : ∃ r q2, tdewSkipTo t n = .ok r ∧ settle q l r = .ok q2 ∧ PQ.Inv tdewLt q2 ∧ (∀ t ∈ q2.heap, Up (stream t)) ∧
            (∀ d, n ≤ d → (qat q2.heap d).Perm (qat (t :: l) d)) ∧ leftOf q2.heap + 1 ≤ leftOf (t :: l) := by
          have hn := tdew_skip t n
          cases hr : (rest t).dropWhile (fun e => decide (e.1 < n)) with
          | nil =>
            rw [hr] at hn
            obtain ⟨t', n1, n2, -, -⟩ := hn
            obtain ⟨q2, s1, s2, s3⟩ := settle_false hq hh t' n2
            refine ⟨_, q2, n1, s1, s2, fun x hx => hs' x (List.mem_cons_of_mem _ (s3.mem_iff.1 hx)), fun d hd => ?_, ?_⟩
            · refine (qat_perm s3 d).trans ?_
              rw [qat_cons]
              unfold stream
              rw [ofList_cons_ne (by show t.doc ≠ d; omega), ← ofList_dropWhile hd, hr]
              exact .refl _
            · rw [leftOf_perm s3, leftOf_cons]; omega
          | cons e r =>
            rw [hr] at hn
            obtain ⟨t', n1, n2, n3⟩ := hn
            obtain ⟨d1, d2, d3⟩ := stream_doc n2
            obtain ⟨q2, s1, s2, s3⟩ := settle_true hq hh t'
            have hup : Up (stream t') := by rw [n2, ← hr]; exact up_dropWhile u2 n
            have hge : n ≤ t'.doc := by
              have := List.head?_dropWhile_not (fun e : Int × Nat => decide (e.1 < n)) (rest t)
              rw [hr] at this
              simp at this
              omega
            have hlen : (e :: r).length ≤ (rest t).length := by rw [← hr]; exact (List.dropWhile_sublist _).length_le
            refine ⟨_, q2, n1, s1, s2, fun x hx => ?_, fun d hd => ?_, ?_⟩
            · rcases List.mem_cons.1 (s3.mem_iff.1 hx) with rfl | hx
              · exact hup
              · exact hs' x (List.mem_cons_of_mem _ hx)
            · refine (qat_perm s3 d).trans ?_
              have h0 : ofList (stream t) t.boost d = ofList (rest t) t.boost d := ofList_cons_ne (by show t.doc ≠ d; omega)
              rw [qat_cons, qat_cons, n2, n3, ← hr, ofList_dropWhile hd, h0]
            · rw [leftOf_perm s3, leftOf_cons, leftOf_cons, d3]
              rw [List.length_cons] at hlen
              omega
        obtain ⟨r, q2, k1, k2, k3, k4, k6, k7⟩ := key
        rw [k1, Res.ok_bind, k2, Res.ok_bind]
        obtain ⟨q', i1, i2, i3, i4, i5, i6⟩ := ih q2 k3 k4 (by omega)
        refine ⟨q', i1, i2, i3, fun hx => ?_, fun d hd => (i5 d hd).trans (k6 d hd), by omega⟩
        have := hx t (by first | exact List.mem_cons_self .. | (rw [hh]; exact List.mem_cons_self ..))
        omega
      · rw [if_neg ht]
        have hmin := PQ.heap_top_min tdewLt_weak hq.heap t (by rw [hh]; rfl)
        refine ⟨q, rfl, hq, fun x hx => ?_, fun _ => rfl, fun d _ => by rw [hh], by rw [hh]; exact Nat.le_refl _⟩
        have h1 := hmin x hx
        unfold tdewLt at h1
        have h3 := decide_eq_false_iff_not.1 h1
        exact ⟨hs x hx, by omega⟩

theorem fillNext_spec : ∀ (ts : List (Tdew S)) (q : PQ.PQ (Tdew S)), PQ.Inv tdewLt q → (∀ t ∈ ts, Up (rest t) ∧ ∀ e ∈ rest t, 0 ≤ e.1) → (∀ t ∈ q.heap, Up (stream t) ∧ -1 < t.doc) →
    ∃ q', fillNext ts q = .ok q' ∧ PQ.Inv tdewLt q' ∧ (∀ t ∈ q'.heap, Up (stream t) ∧ -1 < t.doc) ∧ (∀ d, (qat q'.heap d).Perm (rat ts d ++ qat q.heap d)) ∧
      leftOf q'.heap ≤ leftOf ts + leftOf q.heap := by
  intro ts
  induction ts with
  | nil => intro q hq _ hh; exact ⟨q, rfl, hq, hh, fun d => .refl _, by simp [leftOf]⟩
  | cons t ts ih =>
    intro q hq ht hh
    rw [fillNext]
    obtain ⟨t1, t2⟩ := ht t (List.mem_cons_self ..)
    have hts : ∀ x ∈ ts, Up (rest x) ∧ ∀ e ∈ rest x, 0 ≤ e.1 := fun x hx => ht x (List.mem_cons_of_mem _ hx)
    have hn := tdew_next t
    have hrat : ∀ d, rat (t :: ts) d = ofList (rest t) t.boost d ++ rat ts d := fun d => List.flatMap_cons
    cases hr : rest t with
    | nil =>
      rw [hr] at hn
      obtain ⟨t', n1, n2⟩ := hn
      rw [n1, Res.ok_bind, if_neg (by simp)]
      obtain ⟨q', i1, i2, i3, i4, i5⟩ := ih q hq hts hh
      refine ⟨q', i1, i2, i3, fun d => ?_, by rw [leftOf_cons]; omega⟩
      rw [hrat, hr]
      exact i4 d
    | cons e r =>
      rw [hr] at hn
      obtain ⟨t', n1, n2, n3⟩ := hn
      obtain ⟨d1, d2, d3⟩ := stream_doc n2
      rw [n1, Res.ok_bind, if_pos rfl]
      obtain ⟨q2, p1, p2, -, p4⟩ := PQ.push_spec tdewLt_weak q t' hq
      rw [p1, Res.ok_bind]
      have hgood : ∀ x ∈ q2.heap, Up (stream x) ∧ -1 < x.doc := by
        intro x hx
        rcases List.mem_cons.1 (p4.mem_iff.1 hx) with rfl | hx
        · refine ⟨by rw [n2, ← hr]; exact t1, ?_⟩
          have := t2 e (by rw [hr]; exact List.mem_cons_self ..)
          omega
        · exact hh x hx
      obtain ⟨q', i1, i2, i3, i4, i5⟩ := ih q2 p2 hts hgood
      refine ⟨q', i1, i2, i3, fun d => (i4 d).trans ?_, ?_⟩
      · refine ((qat_perm p4 d).append_left _).trans ?_
        rw [qat_cons, hrat, n2, n3, hr, ← List.append_assoc]
        exact List.perm_append_comm.append_right _
      · rw [leftOf_perm p4, leftOf_cons, d3] at i5
        rw [leftOf_cons, hr, List.length_cons]; omega

theorem fillSkip_spec (n : Int) (hn0 : 0 ≤ n) : ∀ (ts : List (Tdew S)) (q : PQ.PQ (Tdew S)), PQ.Inv tdewLt q → (∀ t ∈ ts, Up (rest t) ∧ t.doc = -1) → (∀ t ∈ q.heap, Up (stream t)) →
    ∃ q', fillSkip n ts q = .ok q' ∧ PQ.Inv tdewLt q' ∧ (∀ t ∈ q'.heap, Up (stream t)) ∧ (∀ d, n ≤ d → (qat q'.heap d).Perm (rat ts d ++ qat q.heap d)) ∧
      leftOf q'.heap ≤ leftOf ts + leftOf q.heap := by
  intro ts
  induction ts with
  | nil => intro q hq _ hh; exact ⟨q, rfl, hq, hh, fun d _ => .refl _, by simp [leftOf]⟩
  | cons t ts ih =>
    intro q hq ht hh
    rw [fillSkip]
    obtain ⟨t1, t2⟩ := ht t (List.mem_cons_self ..)
    have hts : ∀ x ∈ ts, Up (rest x) ∧ x.doc = -1 := fun x hx => ht x (List.mem_cons_of_mem _ hx)
    have hrat : ∀ d, rat (t :: ts) d = ofList (rest t) t.boost d ++ rat ts d := fun d => List.flatMap_cons
    have key : ∃ b t', tdewSkipTo t n = .ok (b, t') ∧ Up (stream t') ∧ (∀ d, n ≤ d → ofList (stream t') t'.boost d = ofList (rest t) t.boost d) ∧ (rest t').length ≤ (rest t).length := by
      have hn := tdew_skip t n
      cases hr : (rest t).dropWhile (fun e => decide (e.1 < n)) with
      | nil =>
        rw [hr] at hn
        obtain ⟨t', n1, n2, n3, n4⟩ := hn
        refine ⟨_, t', n1, ?_, fun d hd => ?_, by rw [n3]; exact Nat.zero_le _⟩
        · unfold stream; rw [n3]; exact List.pairwise_singleton _ _
        · have h0 : ofList (rest t) t.boost d = [] := by rw [← ofList_dropWhile hd, hr]; rfl
          unfold stream
          rw [n3, ofList_cons_ne (by show t'.doc ≠ d; omega), h0]; rfl
      | cons e r =>
        rw [hr] at hn
        obtain ⟨t', n1, n2, n3⟩ := hn
        obtain ⟨d1, d2, d3⟩ := stream_doc n2
        have hlen : (e :: r).length ≤ (rest t).length := by rw [← hr]; exact (List.dropWhile_sublist _).length_le
        refine ⟨_, t', n1, by rw [n2, ← hr]; exact up_dropWhile t1 n, fun d hd => by rw [n2, n3, ← hr, ofList_dropWhile hd], ?_⟩
        rw [d3]; rw [List.length_cons] at hlen; omega
    obtain ⟨b, t', k1, k2, k3, k4⟩ := key
    rw [k1, Res.ok_bind]
    obtain ⟨q2, p1, p2, -, p4⟩ := PQ.push_spec tdewLt_weak q t' hq
    rw [p1, Res.ok_bind]
    have hgood : ∀ x ∈ q2.heap, Up (stream x) := by
      intro x hx
      rcases List.mem_cons.1 (p4.mem_iff.1 hx) with rfl | hx
      · exact k2
      · exact hh x hx
    obtain ⟨q', i1, i2, i3, i4, i5⟩ := ih q2 p2 hts hgood
    refine ⟨q', i1, i2, i3, fun d hd => (i4 d hd).trans ?_, ?_⟩
    · refine ((qat_perm p4 d).append_left _).trans ?_
      rw [qat_cons, hrat, k3 d hd, ← List.append_assoc]
      exact List.perm_append_comm.append_right _
    · rw [leftOf_perm p4, leftOf_cons] at i5
      rw [leftOf_cons]; omega

/-! ### The scorer -/

/-- The boosted postings the scorer was made for. -/
def FullOK (full : List (List (Int × Nat) × S)) : Prop := ∀ x ∈ full, Up x.1 ∧ ∀ e ∈ x.1, 0 ≤ e.1

/-- The scorer has passed all documents up to `lo`. -/
def St (full : List (List (Int × Nat) × S)) (s : Sc S) (lo : Int) : Prop :=
  match s.q with
  | none => lo = -1 ∧ s.tdews = full.map fun x => tdewNew x.1 x.2
  | some q => -1 ≤ lo ∧ PQ.Inv tdewLt q ∧ (∀ t ∈ q.heap, Up (stream t) ∧ lo < t.doc) ∧ ∀ d, lo < d → (qat q.heap d).Perm (fat full d)

theorem rat_new (full : List (List (Int × Nat) × S)) (d : Int) : (rat (full.map fun x => tdewNew x.1 x.2).reverse d).Perm (fat full d) := by
  have h1 : rat (full.map fun x => tdewNew x.1 x.2) d = fat full d := by
    unfold rat fat
    rw [List.flatMap_map]
    congr 1
  rw [← h1]
  exact (List.reverse_perm _).flatMap_right _

theorem qat_head {t : Tdew S} {l : List (Tdew S)} : qat (t :: l) t.doc ≠ [] := by
  rw [qat_cons]; unfold stream; rw [ofList_cons_eq rfl]; exact List.cons_ne_nil _ _

theorem mem_qat {h : List (Tdew S)} {d lo : Int} (hs : ∀ t ∈ h, Up (stream t) ∧ lo ≤ t.doc) (hd : qat h d ≠ []) : lo ≤ d := by
  obtain ⟨x, hx⟩ := List.exists_mem_of_ne_nil _ hd
  obtain ⟨t, ht, hx⟩ := List.mem_flatMap.1 hx
  obtain ⟨e, he, -⟩ := List.mem_map.1 hx
  obtain ⟨he1, he2⟩ := List.mem_filter.1 he
  obtain ⟨u1, u2⟩ := hs t ht
  have he2 : e.1 = d := by simpa using he2
  rcases List.mem_cons.1 he1 with rfl | he1
  · rw [← he2]; exact u2
  · have := (List.pairwise_cons.1 u1).1 e he1
    simp only at this; omega

/-- A step from `lo`: to the next document with one of the terms, or none is left. -/
def Stepped (A : Arith S) (full : List (List (Int × Nat) × S)) (s : Sc S) (lo : Int) (r : Bool × Sc S) : Prop :=
  r.2.tf = s.tf ∧ r.2.weight = s.weight ∧ r.2.norm = s.norm ∧
  ((r.1 = true ∧ ∃ L, lo < r.2.doc ∧ fat full r.2.doc ≠ [] ∧ (∀ x, lo < x → fat full x ≠ [] → r.2.doc ≤ x) ∧ St full r.2 r.2.doc ∧
      L.Perm (fat full r.2.doc) ∧ r.2.total = addUp A s.tf A.zero L ∧ (mtOps A).left r.2 < (mtOps A).left s) ∨
    (r.1 = false ∧ (∀ x, lo < x → fat full x = []) ∧ St full r.2 lo))

/-- The queue made or there, with the postings after `lo`. -/
theorem step_from (A : Arith S) {full : List (List (Int × Nat) × S)} {s : Sc S} {lo : Int} {q : PQ.PQ (Tdew S)} (hlo : -1 ≤ lo) (hq : PQ.Inv tdewLt q) (hs : ∀ t ∈ q.heap, Up (stream t) ∧ lo < t.doc)
    (hp : ∀ d, lo < d → (qat q.heap d).Perm (fat full d)) (hl : leftOf q.heap ≤ (mtOps A).left s) :
    ∃ r, (match q.heap with
      | [] => .ok (false, { s with q := some q })
      | t :: _ => sumGo A s.tf t.doc (leftOf q.heap + 1) q A.zero >>= fun r => .ok (true, { s with q := some r.2, doc := t.doc, total := r.1 }) : Res (Bool × Sc S)) = .ok r ∧ Stepped A full s lo r := by
  cases hh : q.heap with
  | nil =>
    refine ⟨_, rfl, rfl, rfl, rfl, .inr ⟨rfl, fun x hx => ?_, hlo, hq, hs, hp⟩⟩
    have := hp x hx
    rw [hh] at this
    exact List.nil_perm.1 this
  | cons t l =>
    simp only []
    have hmin := PQ.heap_top_min tdewLt_weak hq.heap t (by rw [hh]; rfl)
    have ht := hs t (by rw [hh]; exact List.mem_cons_self ..)
    have hge : ∀ x ∈ q.heap, Up (stream x) ∧ t.doc ≤ x.doc := by
      intro x hx
      have h1 := hmin x hx
      unfold tdewLt at h1
      have h3 := decide_eq_false_iff_not.1 h1
      exact ⟨(hs x hx).1, by omega⟩
    obtain ⟨acc', q', L, i1, -, i3, i4, i5, i6, i7, i8⟩ := go_spec A s.tf t.doc (leftOf q.heap + 1) q A.zero hq hge (Nat.lt_succ_self _)
    rw [← hh, i1, Res.ok_bind]
    have hne : fat full t.doc ≠ [] := by
      intro h
      have := hp t.doc ht.2
      rw [h, List.perm_nil, hh] at this
      exact qat_head this
    have hperm := i6.trans (hp t.doc ht.2)
    refine ⟨_, rfl, rfl, rfl, rfl, .inl ⟨rfl, L, ht.2, hne, fun x hx hfx => ?_, ⟨by show -1 ≤ t.doc; omega, i3, i4, fun d hd => ?_⟩, hperm, i7, ?_⟩⟩
    · refine mem_qat hge fun h => hfx ?_
      have := hp x hx
      rw [h] at this
      exact List.nil_perm.1 this
    · exact (i5 d hd).trans (hp d (by have : t.doc < d := hd; omega))
    · have hL : 1 ≤ L.length := by
        have := List.length_pos_iff.2 hne
        rw [hperm.length_eq]; omega
      show leftOf q'.heap < _
      omega

theorem rest_new (ps : List (Int × Nat)) (b : S) : rest (tdewNew ps b) = ps := by simp [rest, tdewNew]

theorem fresh_ok {full : List (List (Int × Nat) × S)} (hf : FullOK full) : ∀ t ∈ (full.map fun x => tdewNew x.1 x.2).reverse, Up (rest t) ∧ (∀ e ∈ rest t, 0 ≤ e.1) ∧ t.doc = -1 := by
  intro t ht
  obtain ⟨x, hx, rfl⟩ := List.mem_map.1 (List.mem_reverse.1 ht)
  rw [rest_new]
  exact ⟨(hf x hx).1, (hf x hx).2, rfl⟩

theorem next_spec (A : Arith S) {full : List (List (Int × Nat) × S)} (hf : FullOK full) {s : Sc S} {lo : Int} (h : St full s lo) : ∃ r, next A s = .ok r ∧ Stepped A full s lo r := by
  unfold next queueNext
  unfold St at h
  cases hq : s.q with
  | some q =>
    rw [hq] at h
    obtain ⟨h1, h2, h3, h4⟩ := h
    rw [Res.ok_bind]
    exact step_from A h1 h2 h3 h4 (by simp only [mtOps, hq]; exact Nat.le_refl _)
  | none =>
    rw [hq] at h
    obtain ⟨rfl, h2⟩ := h
    simp only [h2]
    obtain ⟨q', i1, i2, i3, i4, i5⟩ := fillNext_spec (full.map fun x => tdewNew x.1 x.2).reverse (PQ.new (full.map fun x => tdewNew x.1 x.2).length) (PQ.inv_new _ _)
      (fun t ht => ⟨(fresh_ok hf t ht).1, (fresh_ok hf t ht).2.1⟩) (fun t ht => by cases ht)
    rw [i1, Res.ok_bind, ← h2]
    refine step_from A (Int.le_refl _) i2 i3 (fun d _ => (i4 d).trans ?_) ?_
    · show (_ ++ []).Perm _
      rw [List.append_nil]
      exact rat_new full d
    · simp only [mtOps, hq]
      rw [leftOf_perm (List.reverse_perm _), ← h2] at i5
      exact i5

theorem advance_spec (A : Arith S) {full : List (List (Int × Nat) × S)} (hf : FullOK full) {s : Sc S} {lo n : Int} (h : St full s lo) (hn : 0 ≤ n) :
    ∃ q r, advanceTo s n = .ok r ∧ r.2.q = some q ∧ r.1 = decide (q.heap ≠ []) ∧ r.2.tf = s.tf ∧ r.2.weight = s.weight ∧ r.2.norm = s.norm ∧ St full r.2 (max lo (n - 1)) ∧ leftOf q.heap ≤ (mtOps A).left s := by
  have key : ∃ q, queueSkip s n = .ok q ∧ PQ.Inv tdewLt q ∧ (∀ t ∈ q.heap, Up (stream t)) ∧ (lo < n ∨ ∀ t ∈ q.heap, lo < t.doc) ∧
      (∀ d, lo < d → n ≤ d → (qat q.heap d).Perm (fat full d)) ∧ leftOf q.heap ≤ (mtOps A).left s ∧ -1 ≤ lo := by
    unfold St at h
    unfold queueSkip
    cases hq : s.q with
    | some q =>
      rw [hq] at h
      obtain ⟨h1, h2, h3, h4⟩ := h
      exact ⟨q, rfl, h2, fun t ht => (h3 t ht).1, .inr fun t ht => (h3 t ht).2, fun d hd _ => h4 d hd, by simp only [mtOps, hq]; exact Nat.le_refl _, h1⟩
    | none =>
      rw [hq] at h
      obtain ⟨rfl, h2⟩ := h
      simp only [h2]
      obtain ⟨q', i1, i2, i3, i4, i5⟩ := fillSkip_spec n hn (full.map fun x => tdewNew x.1 x.2).reverse (PQ.new (full.map fun x => tdewNew x.1 x.2).length) (PQ.inv_new _ _)
        (fun t ht => ⟨(fresh_ok hf t ht).1, (fresh_ok hf t ht).2.2⟩) (fun t ht => by cases ht)
      refine ⟨q', i1, i2, i3, .inl (by omega), fun d _ hd => (i4 d hd).trans ?_, ?_, Int.le_refl _⟩
      · show (_ ++ []).Perm _
        rw [List.append_nil]
        exact rat_new full d
      · simp only [mtOps, hq]
        rw [leftOf_perm (List.reverse_perm _), ← h2] at i5
        exact i5
  obtain ⟨q, k1, k2, k3, k4, k5, k6, k7⟩ := key
  unfold advanceTo
  rw [k1, Res.ok_bind]
  by_cases he : q.heap = []
  · rw [if_pos he]
    refine ⟨q, _, rfl, rfl, by simp [he], rfl, rfl, rfl, ⟨by omega, k2, ?_, fun d hd => k5 d (by omega) (by omega)⟩, k6⟩
    intro t ht; rw [he] at ht; cases ht
  · rw [if_neg he]
    obtain ⟨q', i1, i2, i3, i4, i5, i6⟩ := adv_spec n (leftOf q.heap + 1) q k2 k3 (Nat.lt_succ_self _)
    rw [i1, Res.ok_bind]
    refine ⟨q', _, rfl, rfl, by simp, rfl, rfl, rfl, ⟨by omega, i2, fun t ht => ⟨(i3 t ht).1, ?_⟩, fun d hd => (i5 d (by omega)).trans (k5 d (by omega) (by omega))⟩, by omega⟩
    have h1 := (i3 t ht).2
    rcases k4 with k4 | k4
    · omega
    · by_cases hln : lo < n
      · omega
      · have := i4 fun x hx => by have := k4 x hx; omega
        subst this
        have := k4 t ht
        omega

theorem skip_spec (A : Arith S) {full : List (List (Int × Nat) × S)} (hf : FullOK full) {s : Sc S} {lo n : Int} (h : St full s lo) (hn : 0 ≤ n) :
    ∃ r, skipTo A s n = .ok r ∧ Stepped A full s (max lo (n - 1)) r := by
  obtain ⟨q, r, h1, h2, h3, h4, h5, h6, h7, h8⟩ := advance_spec A hf h hn
  unfold skipTo
  rw [h1, Res.ok_bind]
  have hst := h7
  unfold St at hst
  rw [h2] at hst
  obtain ⟨g1, g2, g3, g4⟩ := hst
  by_cases he : q.heap = []
  · rw [if_neg (by rw [h3]; simp [he])]
    refine ⟨r, rfl, h4, h5, h6, .inr ⟨by rw [h3]; simp [he], fun x hx => ?_, h7⟩⟩
    have := g4 x hx
    rw [he] at this
    exact List.nil_perm.1 this
  · rw [if_pos (by rw [h3]; simp [he])]
    obtain ⟨r', k1, k2, k3, k4, k5⟩ := next_spec A hf h7
    refine ⟨r', k1, k2.trans h4, k3.trans h5, k4.trans h6, ?_⟩
    rcases k5 with ⟨j1, L, j2, j3, j4, j5, j6, j7, j8⟩ | k5
    · refine .inl ⟨j1, L, j2, j3, j4, j5, j6, by rw [j7, h4], ?_⟩
      have : (mtOps A).left r.2 = leftOf q.heap := by simp only [mtOps, h2]
      omega
    · exact .inr k5

/-! ### Scores -/

theorem addUp_spec {A : Arith S} (hA : Lawful A) (tf : Nat → S) : ∀ (L : List (Nat × S)) (acc : S), addUp A tf acc L = A.add acc (total A (L.map fun x => A.mul (tf x.1) x.2)) := by
  intro L
  induction L with
  | nil => intro acc; show acc = A.add acc A.zero; rw [hA.comm, hA.zero]
  | cons x L ih =>
    intro acc
    show addUp A tf (A.add acc (A.mul (tf x.1) x.2)) L = _
    rw [ih, List.map_cons, total, hA.assoc]

theorem weighted_eq (A : Arith S) (tf : Nat → S) : ∀ l : List (Nat × S), weighted A.zero A.add A.mul tf l = total A (l.map fun x => A.mul (tf x.1) x.2) := by
  intro l
  induction l with
  | nil => rfl
  | cons x l ih => rw [weighted, ih]; rfl

theorem addUp_perm {A : Arith S} (hA : Lawful A) (tf : Nat → S) {L M : List (Nat × S)} (h : L.Perm M) : addUp A tf A.zero L = weighted A.zero A.add A.mul tf M := by
  rw [addUp_spec hA, hA.zero, weighted_eq, total_perm hA (h.map _)]

/-- What the query gives for a document. -/
def scoreOf (A : Arith S) (tf : Nat → S) (weight : S) (norm : Int → S) (full : List (List (Int × Nat) × S)) (d : Int) : S :=
  A.mul (A.mul (weighted A.zero A.add A.mul tf (fat full d)) weight) (norm d)

theorem fat_nonneg {full : List (List (Int × Nat) × S)} (hf : FullOK full) {d : Int} (h : fat full d ≠ []) : 0 ≤ d := by
  obtain ⟨y, hy⟩ := List.exists_mem_of_ne_nil _ h
  obtain ⟨x, hx, hy⟩ := List.mem_flatMap.1 hy
  obtain ⟨e, he, -⟩ := List.mem_map.1 hy
  obtain ⟨h1, h2⟩ := List.mem_filter.1 he
  have := (hf x hx).2 e h1
  have h2 : e.1 = d := by simpa using h2
  omega

/-- The contract of the scorer as a part of a boolean query. -/
def mtR (A : Arith S) (s : Sc S) (v : View S) (lo : Int) (_ : Bool) : Prop :=
  ∃ full : List (List (Int × Nat) × S), FullOK full ∧ St full s lo ∧ (∀ d, v.docs d = true ↔ fat full d ≠ []) ∧ (∀ d, v.cnt d = 0) ∧
    (Lawful A → ∀ d, v.docs d = true → v.sc d = scoreOf A s.tf s.weight s.norm full d) ∧
    -1 ≤ lo ∧ (0 ≤ lo → v.docs lo = true ∧ s.doc = lo ∧ ∃ L, L.Perm (fat full lo) ∧ s.total = addUp A s.tf A.zero L)

theorem moved_of {A : Arith S} {full : List (List (Int × Nat) × S)} (hf : FullOK full) {s : Sc S} {v : View S} {lo : Int} (hlo : -1 ≤ lo)
    (hd : ∀ d, v.docs d = true ↔ fat full d ≠ []) (hc : ∀ d, v.cnt d = 0) (hsc : Lawful A → ∀ d, v.docs d = true → v.sc d = scoreOf A s.tf s.weight s.norm full d) {r : Bool × Sc S} (h : Stepped A full s lo r) :
    Moved (mtOps A) (mtR A) v lo s r := by
  obtain ⟨h1, h2, h3, h4⟩ := h
  rcases h4 with ⟨k1, L, k2, k3, k4, k5, k6, k7, k8⟩ | ⟨k1, k2, -⟩
  · refine .inl ⟨k1, r.2.doc, ⟨(hd _).2 k3, k2, fun x hx hl => k4 x hl ((hd x).1 hx)⟩, ⟨full, hf, k5, hd, hc, ?_, by omega, fun _ => ⟨(hd _).2 k3, rfl, L, k6, by rw [h1]; exact k7⟩⟩, k8⟩
    rw [h1, h2, h3]; exact hsc
  · refine .inr ⟨k1, fun x hx => ?_⟩
    by_cases hl : lo < x
    · exact absurd (k2 x hl) ((hd x).1 hx)
    · omega

theorem good_mt {P : Prop} (A : Arith S) (hA : P → Lawful A) : Good P (mtOps A) (mtR A) where
  lo := by
    intro s v lo b ⟨full, _, _, _, _, _, h1, h2⟩
    exact ⟨h1, fun h => (h2 h).1⟩
  nonneg := by
    intro s v lo b x ⟨full, hf, _, hd, _⟩ hx
    exact fat_nonneg hf ((hd x).1 hx)
  next := by
    intro s v lo b ⟨full, hf, hst, hd, hc, hsc, h1, _⟩
    obtain ⟨r, k1, k2⟩ := next_spec A hf hst
    exact ⟨r, k1, moved_of hf h1 hd hc hsc k2⟩
  skip := by
    intro s v lo b n ⟨full, hf, hst, hd, hc, hsc, h1, _⟩ _ hn
    obtain ⟨r, k1, k2⟩ := skip_spec A hf hst (n := n) (by omega)
    rw [show max lo (n - 1) = n - 1 by omega] at k2
    exact ⟨r, k1, moved_of hf (by omega) hd hc hsc k2⟩
  doc := by
    intro s v lo b ⟨full, _, _, _, _, _, _, h2⟩ h
    exact (h2 h).2.1
  score := by
    intro s v lo ⟨full, hf, hst, hd, hc, hsc, h1, h2⟩ h
    obtain ⟨k1, k2, L, k3, k4⟩ := h2 h
    refine ⟨_, s, (by rw [hc]; rfl), fun hP => ?_, ⟨full, hf, hst, hd, hc, hsc, h1, h2⟩, Nat.le_refl _⟩
    rw [hsc (hA hP) lo k1]
    unfold score scoreOf
    rw [k2, k4, addUp_perm (hA hP) _ k3]

open Classical in
/-- The view of a new scorer. -/
noncomputable def viewOf (A : Arith S) (tf : Nat → S) (weight : S) (norm : Int → S) (full : List (List (Int × Nat) × S)) : View S :=
  ⟨fun d => decide (fat full d ≠ []), scoreOf A tf weight norm full, fun _ => 0, true⟩

theorem mtR_new (A : Arith S) {full : List (List (Int × Nat) × S)} (hf : FullOK full) (tf : Nat → S) (weight : S) (norm : Int → S) :
    mtR A (scNew A tf weight norm (full.map fun x => tdewNew x.1 x.2)) (viewOf A tf weight norm full) (-1) false :=
  ⟨full, hf, ⟨rfl, rfl⟩, fun d => by simp [viewOf], fun _ => rfl, fun _ _ _ => rfl, Int.le_refl _, fun h => by omega⟩

/-- The documents of the query, in order. -/
theorem docs_listed (A : Arith S) {full : List (List (Int × Nat) × S)} (hf : FullOK full) : ∃ l : List Int, l.Pairwise (· < ·) ∧ ∀ d, d ∈ l ↔ fat full d ≠ [] := by
  obtain ⟨l, h1, h2⟩ := exists_full (good_mt (P := False) A (fun h => h.elim)) (mtR_new A hf (fun _ => A.zero) A.zero (fun _ => A.zero))
  refine ⟨l, h1, fun d => ?_⟩
  rw [h2]
  simp only [viewOf, decide_eq_true_eq]
  exact ⟨fun h => h.1, fun h => ⟨h, by have := fat_nonneg hf h; omega⟩⟩

theorem walk_nil {F : Type} : ∀ ms : List Move, walk ([] : List (Int × F)) ms = ms.map fun _ => none := by
  intro ms
  induction ms with
  | nil => rfl
  | cons m ms ih =>
    rw [walk]
    have : m.from ([] : List (Int × F)) = [] := by cases m <;> rfl
    rw [this]
    simp only [ih, List.map_cons]

theorem runAll_spec (A : Arith S) {full : List (List (Int × Nat) × S)} (hf : FullOK full) (tf : Nat → S) (weight : S) (norm : Int → S) : ∀ (ms : List Move) {s : Sc S} {lo : Int} (l : List (Int × S)), St full s lo →
    s.tf = tf → s.weight = weight → s.norm = norm →
    (l.map (·.1)).Pairwise (· < ·) → (∀ d, d ∈ l.map (·.1) ↔ (fat full d ≠ [] ∧ lo < d)) → (∀ e ∈ l, e.2 = scoreOf A tf weight norm full e.1) → (∀ n, .skip n ∈ ms → 0 ≤ n) →
    ∃ out, runAll (mtOps A) s ms = .ok out ∧ out.map (Option.map (·.1)) = (walk l ms).map (Option.map (·.1)) ∧ (Lawful A → out = walk l ms) := by
  intro ms
  induction ms with
  | nil => intro s lo l _ _ _ _ _ _ _ _; exact ⟨[], rfl, rfl, fun _ => rfl⟩
  | cons m ms ih =>
    intro s lo l hst e1 e2 e3 hs hm hsc hn
    have hn' : ∀ n, .skip n ∈ ms → 0 ≤ n := fun n h => hn n (List.mem_cons_of_mem _ h)
    have key : ∃ lo', lo ≤ lo' ∧ (∃ r, callMove (mtOps A) s m = .ok r ∧ Stepped A full s lo' r) ∧ m.from l = l.dropWhile (fun e => e.1 < lo' + 1) := by
      have hgt : ∀ e ∈ l, lo < e.1 := fun e he => ((hm e.1).1 (List.mem_map_of_mem he)).2
      cases m with
      | next =>
        refine ⟨lo, Int.le_refl _, next_spec A hf hst, ?_⟩
        simp only [Move.from]
        cases l with
        | nil => rfl
        | cons e l => rw [List.dropWhile_cons_of_neg]; have := hgt e (List.mem_cons_self ..); simp; omega
      | skip n =>
        refine ⟨max lo (n - 1), by omega, skip_spec A hf hst (hn n (List.mem_cons_self ..)), ?_⟩
        simp only [Move.from]
        by_cases h : lo < n
        · rw [show max lo (n - 1) + 1 = n by omega]
        · rw [show max lo (n - 1) + 1 = lo + 1 by omega]
          cases l with
          | nil => rfl
          | cons e l =>
            have := hgt e (List.mem_cons_self ..)
            rw [List.dropWhile_cons_of_neg (by simp; omega), List.dropWhile_cons_of_neg (by simp; omega)]
    obtain ⟨lo', hlo, ⟨r, k1, k2, k3, k4, k5⟩, hfrom⟩ := key
    -- what is left after the move
    have hl' : ∀ d, d ∈ (l.dropWhile fun e => decide (e.1 < lo' + 1)).map (·.1) ↔ (fat full d ≠ [] ∧ lo' < d) := by
      intro d
      have hsp : l.takeWhile (fun e => decide (e.1 < lo' + 1)) ++ l.dropWhile (fun e => decide (e.1 < lo' + 1)) = l := List.takeWhile_append_dropWhile
      have htk : ∀ e ∈ l.takeWhile (fun e => decide (e.1 < lo' + 1)), e.1 < lo' + 1 := by
        intro e he
        have := List.all_eq_true.1 (List.all_takeWhile (p := fun e : Int × S => decide (e.1 < lo' + 1)) (l := l)) e he
        simpa using this
      constructor
      · intro h
        obtain ⟨e, he, rfl⟩ := List.mem_map.1 h
        refine ⟨((hm e.1).1 (List.mem_map_of_mem ((List.dropWhile_sublist _).mem he))).1, ?_⟩
        have hne : l.dropWhile (fun e => decide (e.1 < lo' + 1)) ≠ [] := List.ne_nil_of_mem he
        obtain ⟨a, b, hab⟩ := List.exists_cons_of_ne_nil hne
        have h1 := List.head?_dropWhile_not (fun e : Int × S => decide (e.1 < lo' + 1)) l
        have h2 : ((l.dropWhile fun e => decide (e.1 < lo' + 1)).map (·.1)).Pairwise (· < ·) := hs.sublist ((List.dropWhile_sublist _).map _)
        rw [hab] at h1 h2 he
        simp at h1
        rcases List.mem_cons.1 he with rfl | he
        · omega
        · have : a.1 < e.1 := (List.pairwise_cons.1 h2).1 e.1 (List.mem_map_of_mem he)
          omega
      · rintro ⟨h1, h2⟩
        obtain ⟨e, he, rfl⟩ := List.mem_map.1 ((hm d).2 ⟨h1, by omega⟩)
        refine List.mem_map_of_mem ?_
        rw [← hsp] at he
        rcases List.mem_append.1 he with he | he
        · have := htk e he; omega
        · exact he
    have hsl' : ((l.dropWhile fun e => decide (e.1 < lo' + 1)).map (·.1)).Pairwise (· < ·) := hs.sublist ((List.dropWhile_sublist _).map _)
    have hsc' : ∀ e ∈ l.dropWhile (fun e => decide (e.1 < lo' + 1)), e.2 = scoreOf A tf weight norm full e.1 := fun e he => hsc e ((List.dropWhile_sublist _).mem he)
    rw [runAll, k1, Res.ok_bind, walk, hfrom]
    revert hl' hsl' hsc'
    generalize l.dropWhile (fun e => decide (e.1 < lo' + 1)) = l'
    intro hl' hsl' hsc'
    rcases k5 with ⟨j1, L, j2, j3, j4, j5, j6, j7, -⟩ | ⟨j1, j2, j3⟩
    · rw [if_pos j1]
      have hmem := (hl' r.2.doc).2 ⟨j3, j2⟩
      cases l' with
      | nil => cases hmem
      | cons e l' =>
        obtain ⟨p1, p2⟩ := List.pairwise_cons.1 hsl'
        have hed : e.1 = r.2.doc := by
          have h1 := (hl' e.1).1 (List.mem_cons_self ..)
          have h2 := j4 e.1 h1.2 h1.1
          rcases List.mem_cons.1 hmem with h | h
          · exact h.symm
          · have : e.1 < r.2.doc := p1 _ h; omega
        obtain ⟨out, o1, o2, o3⟩ := ih (s := r.2) (lo := r.2.doc) l' j5 (k2.trans e1) (k3.trans e2) (k4.trans e3) p2 (fun d => by
            constructor
            · intro h
              have h1 := (hl' d).1 (List.mem_cons_of_mem _ h)
              have : e.1 < d := p1 d h
              exact ⟨h1.1, by omega⟩
            · rintro ⟨h1, h2⟩
              rcases List.mem_cons.1 ((hl' d).2 ⟨h1, by omega⟩) with h | h
              · have : d = e.1 := h
                omega
              · exact h) (fun x hx => hsc' x (List.mem_cons_of_mem _ hx)) hn'
        show ∃ out, (Res.ok (score A r.2, 0, r.2) >>= _) = _ ∧ _
        rw [Res.ok_bind]
        simp only []
        rw [o1, Res.ok_bind]
        refine ⟨_, rfl, ?_, fun hA => ?_⟩
        · simp only [List.map_cons, Option.map_some, o2, hed]; rfl
        · simp only [o3 hA]
          have : score A r.2 = e.2 := by
            rw [hsc' e (List.mem_cons_self ..)]
            unfold score scoreOf
            rw [hed, j7, addUp_perm hA _ j6, k3, k4, e1, e2, e3]
          rw [this]
          show some (r.2.doc, e.2) :: _ = _
          rw [← hed]
    · rw [if_neg (by rw [j1]; simp)]
      have hnil : l' = [] := by
        cases l' with
        | nil => rfl
        | cons e l' =>
          have h1 := (hl' e.1).1 (List.mem_cons_self ..)
          exact absurd (j2 e.1 h1.2) h1.1
      subst hnil
      obtain ⟨out, o1, o2, o3⟩ := ih (s := r.2) (lo := lo') [] j3 (k2.trans e1) (k3.trans e2) (k4.trans e3) .nil (fun d => by
          constructor
          · intro h; cases h
          · rintro ⟨h1, h2⟩; exact absurd (j2 d h2) h1) (fun e he => by cases he) hn'
      rw [o1, Res.ok_bind]
      refine ⟨_, rfl, by simp only [List.map_cons, o2], fun hA => by rw [o3 hA]⟩

theorem scExplain_spec (A : Arith S) {full : List (List (Int × Nat) × S)} (hf : FullOK full) {s : Sc S} {lo d : Int} (h : St full s lo) (hd : 0 ≤ d) (hlo : lo < d) :
    (fat full d = [] ∧ scExplain A s d = .ok A.zero) ∨ (fat full d ≠ [] ∧ ∃ L, L.Perm (fat full d) ∧ scExplain A s d = .ok (addUp A s.tf A.zero L)) := by
  obtain ⟨q, r, h1, h2, h3, h4, h5, h6, h7, h8⟩ := advance_spec A hf h hd
  unfold scExplain
  rw [h1, Res.ok_bind]
  unfold St at h7
  rw [h2] at h7
  obtain ⟨g1, g2, g3, g4⟩ := h7
  have hmax : max lo (d - 1) = d - 1 := by omega
  rw [hmax] at g1 g3 g4
  cases hh : q.heap with
  | nil =>
    rw [if_neg (by rw [h3, hh]; simp)]
    refine .inl ⟨?_, rfl⟩
    have := g4 d (by omega)
    rw [hh] at this
    exact List.nil_perm.1 this
  | cons t l =>
    rw [if_pos (by rw [h3, hh]; simp), h2]
    show (_ ∧ (Res.ok q >>= _) = _) ∨ (_ ∧ ∃ L, _ ∧ (Res.ok q >>= _) = _)
    rw [Res.ok_bind]
    simp only [hh]
    have hmin := PQ.heap_top_min tdewLt_weak g2.heap t (by rw [hh]; rfl)
    have ht := g3 t (by rw [hh]; exact List.mem_cons_self ..)
    have hge : ∀ x ∈ q.heap, Up (stream x) ∧ t.doc ≤ x.doc := by
      intro x hx
      have h1 := hmin x hx
      unfold tdewLt at h1
      have h3 := decide_eq_false_iff_not.1 h1
      exact ⟨(g3 x hx).1, by omega⟩
    by_cases htd : t.doc = d
    · rw [if_pos htd]
      obtain ⟨acc', q', L, -, i2, -, -, -, i6, i7, -⟩ := go_spec A s.tf t.doc (leftOf q.heap + 1) q A.zero g2 hge (Nat.lt_succ_self _)
      rw [hh] at i2
      rw [i2, Res.ok_bind]
      have hp := i6.trans (g4 t.doc ht.2)
      rw [htd] at hp
      refine .inr ⟨fun h => ?_, L, hp, by rw [i7]⟩
      have := g4 d (by omega)
      rw [h, List.perm_nil, hh, ← htd] at this
      exact qat_head this
    · rw [if_neg htd]
      refine .inl ⟨?_, rfl⟩
      have := g4 d (by omega)
      rw [qat_nil_of (fun x hx => ⟨(hge x hx).1, by have := (hge x hx).2; omega⟩)] at this
      exact List.nil_perm.1 this

end Ferret.MTerm
