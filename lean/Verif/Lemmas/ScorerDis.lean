import Verif.Lemmas.Scorer
import Verif.Lemmas.PriorityQueue

/-! The disjunction scorer keeps the contract. -/

namespace Ferret.Scorer

open Ferret.Spec

variable {σ ρ ε S : Type} {P : Prop}

/-- Laws of exact score arithmetic. -/
structure Lawful (A : Arith S) : Prop where
  comm : ∀ a b, A.add a b = A.add b a
  assoc : ∀ a b c, A.add (A.add a b) c = A.add a (A.add b c)
  zero : ∀ a, A.add A.zero a = a
  one : ∀ a n, 1 ≤ n → A.mul a (A.dcoord n n) = a

/-- Sum of a list of scores. -/
def total (A : Arith S) : List S → S
  | [] => A.zero
  | a :: l => A.add a (total A l)

theorem total_perm {A : Arith S} (hA : Lawful A) {l m : List S} (h : l.Perm m) : total A l = total A m := by
  induction h with
  | nil => rfl
  | cons a _ ih => simp [total, ih]
  | swap a b l =>
    simp only [total]
    rw [← hA.assoc, hA.comm b a, hA.assoc]
  | trans _ _ i1 i2 => rw [i1, i2]

/-- Sum over the views that contain `d`. -/
def sumSc (A : Arith S) (vs : List (View S)) (d : Int) : S := total A ((vs.filter (fun u => u.docs d)).map (fun u => u.sc d))

/-- Number of views that contain `d`. -/
def cntSc (vs : List (View S)) (d : Int) : Nat := (vs.filter (fun u => u.docs d)).length

theorem sumSc_perm {A : Arith S} (hA : Lawful A) {l m : List (View S)} (h : l.Perm m) (d : Int) :
    sumSc A l d = sumSc A m d := total_perm hA ((h.filter _).map _)

theorem cntSc_perm {l m : List (View S)} (h : l.Perm m) (d : Int) : cntSc l d = cntSc m d :=
  (h.filter _).length_eq

/-- A sub-scorer with its view and position. -/
structure Ent (σ S : Type) where
  st : σ
  v : View S
  pos : Int

theorem perm_map_lift {α β : Type} (f : α → β) {h m : List β} (hp : h.Perm m) :
    ∀ l : List α, l.map f = m → ∃ l' : List α, l'.Perm l ∧ l'.map f = h := by
  induction hp with
  | nil => intro l hl; exact ⟨l, .refl _, hl⟩
  | cons a _ ih =>
    intro l hl
    cases l with
    | nil => simp at hl
    | cons x xs =>
      simp only [List.map_cons, List.cons.injEq] at hl
      obtain ⟨l', h1, h2⟩ := ih xs hl.2
      exact ⟨x :: l', h1.cons x, by simp [h2, hl.1]⟩
  | swap a b l =>
    intro k hk
    match k, hk with
    | x :: y :: zs, hk =>
      simp only [List.map_cons, List.cons.injEq] at hk
      exact ⟨y :: x :: zs, .swap _ _ _, by simp [hk]⟩
  | trans _ _ i1 i2 =>
    intro l hl
    obtain ⟨l2, h1, h2⟩ := i2 l hl
    obtain ⟨l3, h3, h4⟩ := i1 l2 h2
    exact ⟨l3, h3.trans h1, h4⟩

theorem docLt_strictWeak (o : Ops σ S) : StrictWeak (docLt o) where
  asymm a b h := by simp only [docLt, decide_eq_true_eq] at h; simp only [docLt, decide_eq_false_iff_not]; omega
  negTrans a b c h1 h2 := by
    simp only [docLt, decide_eq_false_iff_not] at *; omega

/-- The queue holds exactly the entries, in heap order, all of them positioned. `sc` tells
whether each has been scored. -/
structure QOK (o : Ops σ S) (R : σ → View S → Int → Bool → Prop) (q : PQ.PQ σ) (ents : List (Ent σ S)) : Prop where
  inv : PQ.Inv (docLt o) q
  heap : q.heap = ents.map (·.st)
  pos : ∀ e ∈ ents, 0 ≤ e.pos ∧ o.doc e.st = e.pos

theorem QOK.top {o : Ops σ S} {R} {q : PQ.PQ σ} {t : Ent σ S} {es} (h : QOK o R q (t :: es)) :
    PQ.top q = some t.st ∧ ∀ e ∈ es, t.pos ≤ e.pos := by
  have ht : q.heap.head? = some t.st := by rw [h.heap]; rfl
  refine ⟨ht, fun e he => ?_⟩
  have := PQ.heap_top_min (docLt_strictWeak o) h.inv.heap t.st ht e.st
    (by rw [h.heap]; simp only [List.map_cons, List.mem_cons]; right; exact List.mem_map_of_mem he)
  simp only [docLt, decide_eq_false_iff_not] at this
  have h1 := (h.pos t (by simp)).2
  have h2 := (h.pos e (by simp [he])).2
  omega

/-- The heap condition away from the root survives any change of the root. -/
theorem heap4_set {lt : σ → σ → Bool} {h : List σ} (hh : PQ.IsHeap lt h) (s : σ) :
    ∀ k a b, 4 ≤ k → PQ.at? (h.set 0 s) k = some a → PQ.at? (h.set 0 s) (k / 2) = some b → lt a b = false := by
  intro k a b hk ha hb
  apply hh k a b (by omega)
  · unfold PQ.at? at *
    rw [if_neg (by omega)] at *
    rwa [List.getElem?_set_ne (by omega)] at ha
  · unfold PQ.at? at *
    rw [if_neg (by omega)] at *
    rwa [List.getElem?_set_ne (by omega)] at hb

theorem QOK.down {o : Ops σ S} {R} {q : PQ.PQ σ} {t : Ent σ S} {es} (h : QOK o R q (t :: es))
    (t' : Ent σ S) (h0 : 0 ≤ t'.pos) (hd : o.doc t'.st = t'.pos) :
    ∃ r ents', PQ.down (docLt o) (setTop q t'.st).heap = .ok r ∧ QOK o R { q with heap := r } ents' ∧
      ents'.Perm (t' :: es) := by
  obtain ⟨r, h1, h2, h3⟩ := PQ.down_spec (docLt_strictWeak o) (setTop q t'.st).heap (heap4_set h.inv.heap t'.st)
  have hset : (setTop q t'.st).heap = (t' :: es).map (·.st) := by simp [setTop, h.heap]
  obtain ⟨l', h4, h5⟩ := perm_map_lift (fun e : Ent σ S => e.st) h3 (t' :: es) hset.symm
  refine ⟨r, l', h1, ⟨⟨h2, ?_⟩, h5.symm, ?_⟩, h4⟩
  · have := h.inv.mem
    have : r.length = q.heap.length := by rw [h3.length_eq]; simp [setTop]
    simp only []; omega
  · intro e he
    have := h4.mem_iff.mp he
    rcases List.mem_cons.mp this with rfl | h6
    · exact ⟨h0, hd⟩
    · exact h.pos e (by simp [h6])

theorem QOK.pop {o : Ops σ S} {R} {q : PQ.PQ σ} {t : Ent σ S} {es} (h : QOK o R q (t :: es)) (s : σ) :
    ∃ p ents', PQ.pop (docLt o) (setTop q s) = .ok p ∧ QOK o R p.2 ents' ∧ ents'.Perm es := by
  have hset : (setTop q s).heap = s :: es.map (·.st) := by simp [setTop, h.heap]
  unfold PQ.pop
  rw [hset]
  simp only []
  have hq : q.heap = t.st :: es.map (·.st) := by simp [h.heap]
  generalize hes : es.map (·.st) = ss at *
  -- the list handed to `down`
  have hput : PQ.put (s :: ss) 1 ((s :: ss).getLast (by simp)) = (s :: ss).getLast (by simp) :: ss := by simp [PQ.put]
  rw [hput]
  have hheap4 : ∀ k a b, 4 ≤ k → PQ.at? ((s :: ss).getLast (by simp) :: ss).dropLast k = some a →
      PQ.at? ((s :: ss).getLast (by simp) :: ss).dropLast (k / 2) = some b → docLt o a b = false := by
    intro k a b hk ha hb
    apply h.inv.heap k a b (by omega)
    · rw [hq]
      unfold PQ.at? at *
      rw [if_neg (by omega)] at *
      rw [List.getElem?_dropLast] at ha
      split at ha
      · obtain ⟨j, hj⟩ : ∃ j, k - 1 = j + 1 := ⟨k - 2, by omega⟩
        rw [hj] at ha ⊢; simpa using ha
      · cases ha
    · rw [hq]
      unfold PQ.at? at *
      rw [if_neg (by omega)] at *
      rw [List.getElem?_dropLast] at hb
      split at hb
      · obtain ⟨j, hj⟩ : ∃ j, k / 2 - 1 = j + 1 := ⟨k / 2 - 2, by omega⟩
        rw [hj] at hb ⊢; simpa using hb
      · cases hb
  obtain ⟨r, h1, h2, h3⟩ := PQ.down_spec (docLt_strictWeak o) _ hheap4
  have hperm : r.Perm ss := by
    refine h3.trans ?_
    cases hss : ss with
    | nil => simp
    | cons a l =>
      have := PQ.rotate_perm (a :: l) (by simp)
      simpa using this
  obtain ⟨l', h4, h5⟩ := perm_map_lift (fun e : Ent σ S => e.st) hperm es hes
  refine ⟨_, l', by rw [h1]; rfl, ⟨⟨h2, ?_⟩, h5.symm, ?_⟩, h4⟩
  · have hm := h.inv.mem
    rw [hq] at hm
    have : r.length = ss.length := hperm.length_eq
    simp only [setTop, List.length_cons] at *; omega
  · intro e he
    exact h.pos e (by simp [h4.mem_iff.mp he])

theorem QOK.setTop {o : Ops σ S} {R} {q : PQ.PQ σ} {t : Ent σ S} {es} (h : QOK o R q (t :: es))
    (s : σ) (hd : o.doc s = t.pos) : QOK o R (setTop q s) (⟨s, t.v, t.pos⟩ :: es) := by
  have hdt := h.pos t (by simp)
  refine ⟨⟨?_, ?_⟩, by simp [Scorer.setTop, h.heap], ?_⟩
  · have hh := h.inv.heap
    have key : ∀ k a, PQ.at? (Scorer.setTop q s).heap k = some a → ∃ a', PQ.at? q.heap k = some a' ∧ o.doc a' = o.doc a := by
      intro k a ha
      unfold PQ.at? at *
      split at ha
      · cases ha
      · rename_i hk
        simp only [if_neg hk]
        by_cases h1 : k - 1 = 0
        · simp only [Scorer.setTop, h1, h.heap, List.map_cons, List.set_cons_zero, List.getElem?_cons_zero, Option.some.injEq] at ha
          rw [h1, h.heap]
          exact ⟨t.st, by simp, by rw [← ha, hd, hdt.2]⟩
        · simp only [Scorer.setTop] at ha
          rw [List.getElem?_set_ne (by omega)] at ha
          exact ⟨a, ha, rfl⟩
    intro k a b hk ha hb
    obtain ⟨a', ha', e1⟩ := key k a ha
    obtain ⟨b', hb', e2⟩ := key _ b hb
    have := hh k a' b' hk ha' hb'
    simp only [docLt] at this ⊢
    rw [e1, e2] at this; exact this
  · have := h.inv.mem; simpa [Scorer.setTop] using this
  · intro e he
    rcases List.mem_cons.mp he with rfl | h1
    · exact ⟨hdt.1, hd⟩
    · exact h.pos e (by simp [h1])

/-- Fuel measure of a queue through its entries. -/
def eLeft (o : Ops σ S) (ents : List (Ent σ S)) : Nat := (ents.map (fun e => o.left e.st + 1)).sum

theorem sum_perm {l m : List Nat} (h : l.Perm m) : l.sum = m.sum := by
  induction h with
  | nil => rfl
  | cons a _ ih => simp [ih]
  | swap a b l => simp; omega
  | trans _ _ i1 i2 => rw [i1, i2]

theorem eLeft_perm {o : Ops σ S} {l m : List (Ent σ S)} (h : l.Perm m) : eLeft o l = eLeft o m :=
  sum_perm (h.map _)

theorem qLeft_map (o : Ops σ S) (ents : List (Ent σ S)) : qLeft o (ents.map (·.st)) = eLeft o ents := by
  simp [qLeft, eLeft, List.map_map, Function.comp_def]

/-- Entries of the inner loop that are still to be counted for document `d`. -/
def pend (ents : List (Ent σ S)) (d : Int) : List (Ent σ S) := ents.filter (fun e => e.pos = d)

/-- Position of an entry while document `d` is being assembled. -/
def AtOrAfter (e : Ent σ S) (d : Int) : Prop :=
  e.v.docs e.pos = true ∧ d ≤ e.pos ∧ ∀ x, e.v.docs x = true → d < x → d < e.pos → e.pos ≤ x

/-- What the inner loop leaves behind: every remaining entry is at its first document after `d`. -/
def Left (R : σ → View S → Int → Bool → Prop) (vs : List (View S)) (d : Int) (ents : List (Ent σ S)) (dead : List (View S)) : Prop :=
  (ents.map (·.v) ++ dead).Perm vs ∧ (∀ e ∈ ents, R e.st e.v e.pos false ∧ NextAfter e.v d e.pos) ∧
  (∀ u ∈ dead, ∀ x, u.docs x = true → x ≤ d)

theorem disInner_spec {A : Arith S} (hA : P → Lawful A) {o : Ops σ S} {R} (g : Good P o R) (vs : List (View S)) (d : Int) (hd0 : 0 ≤ d) :
    ∀ (fuel : Nat) (q : PQ.PQ σ) (cum : S) (num : Nat) (t : Ent σ S) (es : List (Ent σ S)) (dead : List (View S)),
      eLeft o (t :: es) < fuel + 1 → 1 ≤ num →
      QOK o R q (t :: es) → R t.st t.v d true → t.pos = d →
      ((t :: es).map (·.v) ++ dead).Perm vs →
      (∀ e ∈ es, R e.st e.v e.pos false ∧ AtOrAfter e d) →
      (∀ u ∈ dead, ∀ x, u.docs x = true → x ≤ d) →
      (P → A.add cum (total A ((pend es d).map (fun e => e.v.sc d))) = sumSc A vs d) →
      num + (pend es d).length = cntSc vs d →
      ∃ q' cum' ents dead', disInner A o 1 d (fuel + 1) q cum num = .ok (.brk q' cum' (cntSc vs d)) ∧
        (P → cum' = sumSc A vs d) ∧ QOK o R q' ents ∧ Left R vs d ents dead' ∧ eLeft o ents < eLeft o (t :: es) := by
  intro fuel
  induction fuel with
  | zero =>
    intro q cum num t es dead hf
    simp [eLeft] at hf
  | succ n ih =>
    intro q cum num t es dead hf hnum hq ht htp hperm hes hdead hcum hcnt
    unfold disInner
    rw [hq.top.1]
    simp only []
    obtain ⟨r, r1, r2⟩ := g.next ht
    rw [r1, Res.ok_bind]
    -- finishing from a queue with entries `ents'`, all pending ones unscored
    have finish : ∀ (q1 : PQ.PQ σ) (ents1 : List (Ent σ S)) (dead1 : List (View S)) (rest : List (Ent σ S)),
        ents1 ≠ [] → QOK o R q1 ents1 → ents1.Perm rest → (rest.map (·.v) ++ dead1).Perm vs →
        (∀ e ∈ rest, R e.st e.v e.pos false ∧ AtOrAfter e d) →
        (∀ u ∈ dead1, ∀ x, u.docs x = true → x ≤ d) →
        (P → A.add cum (total A ((pend rest d).map (fun e => e.v.sc d))) = sumSc A vs d) →
        num + (pend rest d).length = cntSc vs d → eLeft o rest < eLeft o (t :: es) →
        ∃ q' cum' ents dead', (disTop A o d q1 cum num >>= fun x =>
          match x with
          | none => .ok (.brk q1 cum num)
          | some y => disInner A o 1 d (n + 1) y.1 y.2.1 y.2.2) = .ok (.brk q' cum' (cntSc vs d)) ∧
          (P → cum' = sumSc A vs d) ∧ QOK o R q' ents ∧ Left R vs d ents dead' ∧ eLeft o ents < eLeft o (t :: es) := by
      intro q1 ents1 dead1 rest hne hq1 hp1 hv1 he1 hd1 hc1 hn1 hl1
      obtain ⟨t1, es1, rfl⟩ : ∃ t1 es1, ents1 = t1 :: es1 := by
        cases ents1 with
        | nil => exact absurd rfl hne
        | cons a l => exact ⟨a, l, rfl⟩
      have hmem : ∀ e ∈ t1 :: es1, R e.st e.v e.pos false ∧ AtOrAfter e d := fun e he => he1 e (hp1.mem_iff.mp he)
      have hvp : ((t1 :: es1).map (·.v) ++ dead1).Perm vs := ((hp1.map _).append_right _).trans hv1
      have hpend : (pend (t1 :: es1) d).Perm (pend rest d) := hp1.filter _
      unfold disTop
      rw [hq1.top.1]
      simp only []
      have htd := (hq1.pos t1 (by simp)).2
      rw [htd]
      have ht1 := hmem t1 (by simp)
      by_cases hpos : t1.pos = d
      · rw [if_neg (by simp [hpos])]
        have hr1 : R t1.st t1.v d false := by rw [← hpos]; exact ht1.1
        obtain ⟨x, s', k1, kx, k2, k3⟩ := g.score hr1 hd0
        rw [k1, Res.ok_bind]
        simp only []
        have hq2 := hq1.setTop s' (by rw [g.doc k2 hd0, hpos])
        have hpc : pend (t1 :: es1) d = t1 :: pend es1 d := by simp [pend, hpos]
        have hsum : P → A.add (A.add cum x) (total A ((pend es1 d).map (fun e => e.v.sc d))) = sumSc A vs d := by
          intro hp
          have hA := hA hp
          rw [← hc1 hp, hA.assoc, kx hp]
          congr 1
          rw [← total_perm hA (hpend.map (fun e => e.v.sc d)), hpc]
          rfl
        have hcn : num + 1 + (pend es1 d).length = cntSc vs d := by
          rw [← hn1, ← hpend.length_eq, hpc]; simp; omega
        have hle : eLeft o (⟨s', t1.v, t1.pos⟩ :: es1) ≤ eLeft o rest := by
          rw [← eLeft_perm hp1]; simp [eLeft]; omega
        obtain ⟨q', cum', ents, dead', w1, wc, w2, w3, w4⟩ := ih (Scorer.setTop q1 s') (A.add cum x) (num + 1) ⟨s', t1.v, t1.pos⟩ es1 dead1
          (by omega) (by omega) hq2 k2 hpos hvp (fun e he => hmem e (by simp [he])) hd1 hsum hcn
        exact ⟨q', cum', ents, dead', w1, wc, w2, w3, by omega⟩
      · rw [if_pos (by simpa using hpos), Res.ok_bind]
        have hgt : ∀ e ∈ t1 :: es1, d < e.pos := by
          intro e he
          have h1 : d < t1.pos := by have := ht1.2.2.1; omega
          rcases List.mem_cons.mp he with rfl | h2
          · exact h1
          · have := hq1.top.2 e h2; omega
        have hnil : pend (t1 :: es1) d = [] := by
          simp only [pend, List.filter_eq_nil_iff, decide_eq_true_eq]
          intro e he; have := hgt e he; omega
        have hnil' : pend rest d = [] := by
          have := hpend.length_eq
          rw [hnil] at this
          exact List.length_eq_zero_iff.mp this.symm
        rw [hnil'] at hc1 hn1
        simp only [List.map_nil, total, List.length_nil, Nat.add_zero] at hc1 hn1
        refine ⟨q1, cum, t1 :: es1, dead1, by rw [hn1], fun hp => by rw [← hc1 hp, (hA hp).comm, (hA hp).zero], hq1, ⟨hvp, fun e he => ⟨(hmem e he).1, ?_⟩, hd1⟩, ?_⟩
        · have := (hmem e he).2
          exact ⟨this.1, hgt e he, fun x hx hxd => this.2.2 x hx hxd (hgt e he)⟩
        · rw [eLeft_perm hp1]; exact hl1
    rcases r2 with ⟨e1, p, e2, e3, e4⟩ | ⟨e1, e2⟩
    · rw [if_pos e1]
      have hp := e2.2.1
      obtain ⟨h, ents', w1, w2, w3⟩ := hq.down (R := R) ⟨r.2, t.v, p⟩ (show 0 ≤ p by omega) (g.doc (lo := p) e3 (by omega))
      simp only at w1
      rw [w1, Res.ok_bind]
      refine finish _ ents' dead (⟨r.2, t.v, p⟩ :: es) ?_ w2 w3 (by simpa using hperm) ?_ hdead ?_ ?_ ?_
      · intro hnil; rw [hnil] at w3; have := w3.length_eq; simp at this
      · intro e he
        rcases List.mem_cons.mp he with rfl | h1
        · exact ⟨e3, e2.1, show d ≤ p by omega, fun x hx hxd _ => e2.2.2 x hx hxd⟩
        · exact hes e h1
      · have : pend (⟨r.2, t.v, p⟩ :: es) d = pend es d := by
          simp [pend, show ¬ p = d by omega]
        rw [this]; exact hcum
      · have : pend (⟨r.2, t.v, p⟩ :: es) d = pend es d := by
          simp [pend, show ¬ p = d by omega]
        rw [this]; exact hcnt
      · simp only [eLeft, List.map_cons, List.sum_cons]; omega
    · rw [if_neg (by simp [e1])]
      obtain ⟨p, ents', w1, w2, w3⟩ := hq.pop r.2
      rw [w1, Res.ok_bind]
      rw [if_neg (by omega)]
      have hperm' : (es.map (·.v) ++ t.v :: dead).Perm vs := by
        refine List.Perm.trans ?_ hperm
        simp only [List.map_cons, List.cons_append]
        exact List.perm_middle
      have hdead' : ∀ u ∈ t.v :: dead, ∀ x, u.docs x = true → x ≤ d := by
        intro u hu
        rcases List.mem_cons.mp hu with rfl | h1
        · exact e2
        · exact hdead u h1
      have hlt : eLeft o es < eLeft o (t :: es) := by simp only [eLeft, List.map_cons, List.sum_cons]; omega
      by_cases hnil : p.2.heap.length = 0
      · rw [if_pos hnil]
        have he' : ents' = [] := by
          rw [w2.heap] at hnil; simpa using hnil
        subst he'
        have hes' : es = [] := by have := w3.length_eq; simpa using this.symm
        subst hes'
        simp only [pend, List.filter_nil, List.map_nil, total, List.length_nil, Nat.add_zero] at hcum hcnt
        exact ⟨p.2, cum, [], t.v :: dead, by rw [hcnt], fun hp => by rw [← hcum hp, (hA hp).comm, (hA hp).zero], w2, ⟨by simpa using hperm', by simp, hdead'⟩, hlt⟩
      · rw [if_neg hnil]
        refine finish p.2 ents' (t.v :: dead) es ?_ w2 w3 hperm' hes hdead' hcum hcnt hlt
        intro h; rw [h] at w2; exact hnil (by rw [w2.heap]; rfl)

/-- How a disjunction view relates to its sub-views. -/
structure IsDis (A : Arith S) (counting : Bool) (vs : List (View S)) (v : View S) : Prop where
  docs : ∀ d, v.docs d = true ↔ ∃ u ∈ vs, u.docs d = true
  sc : ∀ d, v.docs d = true → v.sc d = sumSc A vs d
  cnt : ∀ d, v.docs d = true → v.cnt d = if counting then cntSc vs d else 0
  skips : v.skips = true → ∀ u ∈ vs, u.skips = true
  nonneg : ∀ u ∈ vs, ∀ x, u.docs x = true → 0 ≤ x

/-- Pointwise relation of two lists. -/
inductive All2 {α β : Type} (P : α → β → Prop) : List α → List β → Prop
  | nil : All2 P [] []
  | cons {a b l m} : P a b → All2 P l m → All2 P (a :: l) (b :: m)

theorem All2.length {α β : Type} {P : α → β → Prop} {l m} (h : All2 P l m) : l.length = m.length := by
  induction h with
  | nil => rfl
  | cons _ _ ih => simp [ih]

def disR (P : Prop) (A : Arith S) (o : Ops σ S) (R : σ → View S → Int → Bool → Prop) (d : Dis σ S) (v : View S) (lo : Int) (_b : Bool) : Prop :=
  ∃ vs, IsDis A d.counting vs v ∧ d.min = 1 ∧ d.doc = lo ∧ -1 ≤ lo ∧
    (0 ≤ lo → v.docs lo = true ∧ (P → d.cum = sumSc A vs lo) ∧ d.num = cntSc vs lo) ∧
    ((d.queue = none ∧ lo = -1 ∧ All2 (fun s u => R s u (-1) false) d.subs vs) ∨
     (∃ q ents dead, d.queue = some q ∧ QOK o R q ents ∧ Left R vs lo ents dead))

theorem disInit_spec {o : Ops σ S} {R} (g : Good P o R) : ∀ (ss : List σ) (us vs : List (View S)) (q : PQ.PQ σ) (ents : List (Ent σ S)) (dead : List (View S)),
    All2 (fun s u => R s u (-1) false) ss us → QOK o R q ents → Left R vs (-1) ents dead →
    q.heap.length + ss.length ≤ q.capa →
    ∃ q' ents' dead', disInit o ss q = .ok q' ∧ QOK o R q' ents' ∧ Left R (us ++ vs) (-1) ents' dead' ∧
      eLeft o ents' ≤ eLeft o ents + (ss.map o.left).sum := by
  intro ss
  induction ss with
  | nil =>
    intro us vs q ents dead h hq hl _
    cases h
    exact ⟨q, ents, dead, rfl, hq, hl, by simp⟩
  | cons s ss ih =>
    intro us vs q ents dead h hq hl hcap
    cases h with
    | @cons _ u _ us hs hss =>
    unfold disInit
    obtain ⟨r, r1, r2⟩ := g.next hs
    rw [r1, Res.ok_bind]
    simp only [List.length_cons] at hcap
    rcases r2 with ⟨e1, p, e2, e3, e4⟩ | ⟨e1, e2⟩
    · rw [if_pos e1]
      have hp := e2.2.1
      obtain ⟨q1, i, x, i1, i2, i3, i4⟩ := PQ.insert_spec (docLt_strictWeak o) q r.2 hq.inv
      rw [i1, Res.ok_bind]
      rcases i4 with ⟨_, _, _, hperm⟩ | ⟨hbad, _⟩
      · have hmap : (⟨r.2, u, p⟩ :: ents : List (Ent σ S)).map (·.st) = r.2 :: q.heap := by simp [hq.heap]
        obtain ⟨ents1, p1, p2⟩ := perm_map_lift (fun e : Ent σ S => e.st) hperm (⟨r.2, u, p⟩ :: ents) hmap
        have hq1 : QOK o R q1 ents1 := by
          refine ⟨i2, p2.symm, fun e he => ?_⟩
          rcases List.mem_cons.mp (p1.mem_iff.mp he) with rfl | h1
          · exact ⟨show 0 ≤ p by omega, g.doc (lo := p) e3 (by omega)⟩
          · exact hq.pos e h1
        have hl1 : Left R (u :: vs) (-1) ents1 dead := by
          refine ⟨?_, ?_, hl.2.2⟩
          · exact ((p1.map _).append_right _).trans (by simpa using hl.1.cons u)
          · intro e he
            rcases List.mem_cons.mp (p1.mem_iff.mp he) with rfl | h1
            · exact ⟨e3, e2⟩
            · exact hl.2.1 e h1
        obtain ⟨q', ents', dead', w1, w2, w3, w4⟩ := ih us (u :: vs) q1 ents1 dead hss hq1 hl1 (by
          rw [hperm.length_eq, i3]; simp; omega)
        refine ⟨q', ents', dead', w1, w2, ⟨w3.1.trans ?_, w3.2⟩, ?_⟩
        · simp only [List.cons_append]; exact List.perm_middle
        · rw [eLeft_perm p1] at w4
          simp only [eLeft, List.map_cons, List.sum_cons] at w4 ⊢
          omega
      · omega
    · rw [if_neg (by simp [e1])]
      have hl1 : Left R (u :: vs) (-1) ents (u :: dead) := by
        refine ⟨?_, hl.2.1, ?_⟩
        · exact List.perm_middle.trans (hl.1.cons u)
        · intro w hw
          rcases List.mem_cons.mp hw with rfl | h1
          · exact e2
          · exact hl.2.2 w h1
      obtain ⟨q', ents', dead', w1, w2, w3, w4⟩ := ih us (u :: vs) q ents (u :: dead) hss hq hl1 (by omega)
      refine ⟨q', ents', dead', w1, w2, ⟨w3.1.trans ?_, w3.2⟩, ?_⟩
      · simp only [List.cons_append]; exact List.perm_middle
      · simp only [List.map_cons, List.sum_cons]; omega

theorem disQueue_spec {A : Arith S} {o : Ops σ S} {R} (g : Good P o R) {d : Dis σ S} {vs lo}
    (h : (d.queue = none ∧ lo = -1 ∧ All2 (fun s u => R s u (-1) false) d.subs vs) ∨
     (∃ q ents dead, d.queue = some q ∧ QOK o R q ents ∧ Left R vs lo ents dead)) :
    ∃ q ents dead, disQueue o d = .ok q ∧ QOK o R q ents ∧ Left R vs lo ents dead ∧ eLeft o ents ≤ (disOps A o).left d := by
  unfold disQueue
  rcases h with ⟨h1, h2, h3⟩ | ⟨q, ents, dead, h1, h2, h3⟩
  · rw [h1]
    simp only []
    obtain ⟨q', ents', dead', w1, w2, w3, w4⟩ := disInit_spec g d.subs vs [] (PQ.new d.subs.length) [] [] h3
      ⟨PQ.inv_new _ _, rfl, by simp⟩ ⟨by simp, by simp, by simp⟩ (by simp [PQ.new])
    subst h2
    refine ⟨q', ents', dead', w1, w2, by simpa using w3, ?_⟩
    simp only [disOps, h1]
    simpa [eLeft] using w4
  · rw [h1]
    refine ⟨q, ents, dead, rfl, h2, h3, ?_⟩
    simp only [disOps, h1]
    rw [h2.heap, qLeft_map]; exact Nat.le_refl _

theorem Left.none {R : σ → View S → Int → Bool → Prop} {vs lo dead} (h : Left R vs lo ([] : List (Ent σ S)) dead) :
    ∀ u ∈ vs, ∀ x, u.docs x = true → x ≤ lo := by
  intro u hu
  have := h.1.mem_iff.mpr hu
  exact h.2.2 u (by simpa using this)

theorem disAdvance_spec {A : Arith S} (hA : P → Lawful A) {o : Ops σ S} {R} (g : Good P o R) {d : Dis σ S} {v vs lo}
    (hv : IsDis A d.counting vs v) (hmin : d.min = 1) (fuel : Nat)
    {q ents dead} (hq : QOK o R q ents) (hl : Left R vs lo ents dead) (hne : ents ≠ []) :
    ∃ d', disAdvance A o (fuel + 1) d q = .ok (true, d') ∧ (disOps A o).left d' < eLeft o ents ∧
      ∃ x, NextAfter v lo x ∧ disR P A o R d' v x false := by
  obtain ⟨t, es, rfl⟩ : ∃ t es, ents = t :: es := by
    cases ents with
    | nil => exact absurd rfl hne
    | cons a l => exact ⟨a, l, rfl⟩
  obtain ⟨ht1, ht2⟩ := hl.2.1 t (by simp)
  have hpos := hq.pos t (by simp)
  have htlo := ht2.2.1
  unfold disAdvance
  rw [hq.top.1]
  simp only []
  obtain ⟨y, s', k1, ky, k2, k3⟩ := g.score ht1 hpos.1
  rw [k1, Res.ok_bind, hmin, hpos.2]
  have hdocs : ∀ e ∈ t :: es, (e.v.docs t.pos = true ↔ e.pos = t.pos) := by
    intro e he
    obtain ⟨_, h2⟩ := hl.2.1 e he
    have hle : t.pos ≤ e.pos := by
      rcases List.mem_cons.mp he with rfl | h3
      · exact Int.le_refl _
      · exact hq.top.2 e h3
    constructor
    · intro h3; have := h2.2.2 t.pos h3 htlo; omega
    · intro h3; rw [← h3]; exact h2.1
  have hdeadf : dead.filter (fun u => u.docs t.pos) = [] := by
    rw [List.filter_eq_nil_iff]
    intro u hu h3
    have := hl.2.2 u hu t.pos h3; omega
  have hfil : (((t :: es).map (·.v) ++ dead).filter (fun u => u.docs t.pos)) = ((pend (t :: es) t.pos).map (·.v)) := by
    rw [List.filter_append, hdeadf, List.append_nil, List.filter_map]
    congr 1
    unfold pend
    apply List.filter_congr
    intro e he
    have := hdocs e he
    simp only [Function.comp]
    rw [Bool.eq_iff_iff, this]; simp
  have hsum : P → A.add y (total A ((pend es t.pos).map (fun e => e.v.sc t.pos))) = sumSc A vs t.pos := by
    intro hp
    rw [← sumSc_perm (hA hp) hl.1, ky hp]
    unfold sumSc
    rw [hfil, List.map_map]
    simp [pend, total, Function.comp_def]
  have hcnt : cntSc vs t.pos = 1 + (pend es t.pos).length := by
    rw [← cntSc_perm hl.1]
    unfold cntSc
    rw [hfil]
    simp [pend]; omega
  have hle : eLeft o (⟨s', t.v, t.pos⟩ :: es) ≤ eLeft o (t :: es) := by simp [eLeft]; omega
  obtain ⟨q', cum', ents', dead', w1, wc, w2, w3, w4⟩ := disInner_spec hA g vs t.pos hpos.1 (qLeft o q.heap) (Scorer.setTop q s') y 1
    ⟨s', t.v, t.pos⟩ es dead (by rw [hq.heap, qLeft_map]; omega) (Nat.le_refl _)
    (hq.setTop s' (by rw [g.doc k2 hpos.1])) k2 rfl (by simpa using hl.1)
    (fun e he => ⟨(hl.2.1 e (by simp [he])).1, (hl.2.1 e (by simp [he])).2.1, hq.top.2 e he,
      fun x hx hxd _ => (hl.2.1 e (by simp [he])).2.2.2 x hx (by omega)⟩)
    (fun u hu x hx => by have := hl.2.2 u hu x hx; omega) hsum hcnt.symm
  rw [w1, Res.ok_bind]
  simp only []
  have hc1 : cntSc vs t.pos ≥ 1 := by omega
  rw [if_pos hc1]
  have hvd : v.docs t.pos = true := (hv.docs _).mpr ⟨t.v, hl.1.mem_iff.mp (by simp), ht2.1⟩
  refine ⟨_, rfl, ?_, t.pos, ⟨hvd, htlo, ?_⟩, vs, hv, rfl, rfl, by omega, fun _ => ⟨hvd, wc, rfl⟩, .inr ⟨q', ents', dead', rfl, w2, w3⟩⟩
  · simp only [disOps]
    rw [w2.heap, qLeft_map]; omega
  · intro x hx hxl
    obtain ⟨u, hu, hux⟩ := (hv.docs x).mp hx
    have := hl.1.mem_iff.mpr hu
    rcases List.mem_append.mp this with h1 | h1
    · obtain ⟨e, he, rfl⟩ := List.mem_map.mp h1
      have h2 := (hl.2.1 e he).2.2.2 x hux hxl
      rcases List.mem_cons.mp he with rfl | h3
      · exact h2
      · have := hq.top.2 e h3; omega
    · have := hl.2.2 u h1 x hux; omega

theorem disSkipLoop_spec {A : Arith S} (hA : P → Lawful A) {o : Ops σ S} {R} (g : Good P o R) {v vs n}
    (hn0 : 0 ≤ n) (hskip : ∀ u ∈ vs, u.skips = true) :
    ∀ (fuel : Nat) (d : Dis σ S) (q : PQ.PQ σ) (ents : List (Ent σ S)) (dead : List (View S)), eLeft o ents < fuel → IsDis A d.counting vs v → d.min = 1 → ents ≠ [] →
      QOK o R q ents → (ents.map (·.v) ++ dead).Perm vs →
      (∀ e ∈ ents, R e.st e.v e.pos false ∧ e.v.docs e.pos = true ∧ (n ≤ e.pos → ∀ x, e.v.docs x = true → n ≤ x → e.pos ≤ x)) →
      (∀ u ∈ dead, ∀ x, u.docs x = true → x < n) →
      ∃ r, disSkipLoop A o n fuel d q = .ok r ∧
        ((r.1 = true ∧ (disOps A o).left r.2 < eLeft o ents ∧ ∃ x, NextAfter v (n - 1) x ∧ disR P A o R r.2 v x false) ∨
         (r.1 = false ∧ ∀ x, v.docs x = true → x ≤ n - 1)) := by
  intro fuel
  induction fuel with
  | zero => intro d q ents dead h; omega
  | succ m ih =>
    intro d q ents dead hf hv hmin hne hq hperm hes hdead
    obtain ⟨t, es, rfl⟩ : ∃ t es, ents = t :: es := by
      cases ents with
      | nil => exact absurd rfl hne
      | cons a l => exact ⟨a, l, rfl⟩
    have hpos := hq.pos t (by simp)
    unfold disSkipLoop
    rw [hq.top.1]
    simp only [hpos.2]
    by_cases hge : t.pos ≥ n
    · rw [if_pos hge]
      have hl : Left R vs (n - 1) (t :: es) dead := by
        refine ⟨hperm, fun e he => ⟨(hes e he).1, (hes e he).2.1, ?_, ?_⟩, fun u hu x hx => by have := hdead u hu x hx; omega⟩
        · rcases List.mem_cons.mp he with rfl | h3
          · omega
          · have := hq.top.2 e h3; omega
        · intro x hx hxl
          refine (hes e he).2.2 ?_ x hx (by omega)
          rcases List.mem_cons.mp he with rfl | h3
          · omega
          · have := hq.top.2 e h3; omega
      obtain ⟨d', w1, w2, w3⟩ := disAdvance_spec hA g hv hmin (qLeft o q.heap) hq hl hne
      exact ⟨_, w1, .inl ⟨rfl, w2, w3⟩⟩
    · rw [if_neg hge]
      obtain ⟨k, k1, k2⟩ := g.skip (hes t (by simp)).1 (hskip t.v (hperm.mem_iff.mp (by simp))) (n := n) (by omega)
      rw [k1, Res.ok_bind]
      rcases k2 with ⟨e1, p, e2, e3, e4⟩ | ⟨e1, e2⟩
      · rw [if_pos e1]
        have hp := e2.2.1
        obtain ⟨h, ents', w1, w2, w3⟩ := hq.down (R := R) ⟨k.2, t.v, p⟩ (show 0 ≤ p by omega) (g.doc (lo := p) e3 (by omega))
        simp only at w1
        rw [w1, Res.ok_bind]
        have hlt : eLeft o ents' < eLeft o (t :: es) := by
          rw [eLeft_perm w3]; simp only [eLeft, List.map_cons, List.sum_cons]; omega
        obtain ⟨r, r1, r2⟩ := ih d { q with heap := h } ents' dead (by omega) hv hmin
          (by intro hnil; rw [hnil] at w3; have := w3.length_eq; simp at this) w2
          (((w3.map _).append_right _).trans (by simpa using hperm))
          (by
            intro e he
            rcases List.mem_cons.mp (w3.mem_iff.mp he) with rfl | h3
            · exact ⟨e3, e2.1, fun _ x hx hxn => e2.2.2 x hx (by omega)⟩
            · exact hes e (by simp [h3])) hdead
        refine ⟨r, r1, ?_⟩
        rcases r2 with ⟨a, b, c⟩ | h2
        · exact .inl ⟨a, by omega, c⟩
        · exact .inr h2
      · rw [if_neg (by simp [e1])]
        obtain ⟨p, ents', w1, w2, w3⟩ := hq.pop k.2
        rw [w1, Res.ok_bind, hmin]
        have hperm' : (ents'.map (·.v) ++ t.v :: dead).Perm vs := by
          refine ((w3.map _).append_right _).trans ?_
          refine List.Perm.trans ?_ hperm
          simp only [List.map_cons, List.cons_append]
          exact List.perm_middle
        have hdead' : ∀ u ∈ t.v :: dead, ∀ x, u.docs x = true → x < n := by
          intro u hu x hx
          rcases List.mem_cons.mp hu with rfl | h1
          · have := e2 x hx; omega
          · exact hdead u h1 x hx
        by_cases hsz : p.2.heap.length < 1
        · rw [if_pos hsz]
          refine ⟨_, rfl, .inr ⟨rfl, fun x hx => ?_⟩⟩
          have : ents' = [] := by
            have h1 : p.2.heap.length = 0 := by omega
            rw [w2.heap] at h1; simpa using h1
          subst this
          obtain ⟨u, hu, hux⟩ := (hv.docs x).mp hx
          have := hdead' u (by simpa using hperm'.mem_iff.mpr hu) x hux
          omega
        · rw [if_neg hsz]
          have hlt : eLeft o ents' < eLeft o (t :: es) := by
            rw [eLeft_perm w3]; simp only [eLeft, List.map_cons, List.sum_cons]; omega
          obtain ⟨r, r1, r2⟩ := ih d p.2 ents' (t.v :: dead) (by omega) hv hmin
            (by intro hnil; rw [hnil] at w2; exact hsz (by rw [w2.heap]; simp)) w2 hperm'
            (fun e he => hes e (by simp [w3.mem_iff.mp he])) hdead'
          refine ⟨r, r1, ?_⟩
          rcases r2 with ⟨a, b, c⟩ | h2
          · exact .inl ⟨a, by omega, c⟩
          · exact .inr h2

theorem good_dis {A : Arith S} (hA : P → Lawful A) {o : Ops σ S} {R} (g : Good P o R) : Good P (disOps A o) (disR P A o R) where
  lo := by
    rintro s v lo b ⟨vs, hv, hmin, hdoc, hlo, hcur, _⟩
    exact ⟨hlo, fun h => (hcur h).1⟩
  nonneg := by
    rintro s v lo b x ⟨vs, hv, _⟩ hx
    obtain ⟨u, hu, h⟩ := (hv.docs x).mp hx
    exact hv.nonneg u hu x h
  next := by
    rintro s v lo b ⟨vs, hv, hmin, hdoc, hlo, hcur, hq⟩
    obtain ⟨q, ents, dead, w1, w2, w3, w4⟩ := disQueue_spec (A := A) g hq
    show ∃ r, disNext A o s = .ok r ∧ _
    simp only [disNext, w1, Res.ok_bind, hmin]
    by_cases h : q.heap.length < 1
    · rw [if_pos h]
      refine ⟨_, rfl, .inr ⟨rfl, fun x hx => ?_⟩⟩
      have : ents = [] := by
        have h1 : q.heap.length = 0 := by omega
        rw [w2.heap] at h1; simpa using h1
      subst this
      obtain ⟨u, hu, hux⟩ := (hv.docs x).mp hx
      exact w3.none u hu x hux
    · rw [if_neg h]
      have hne : ents ≠ [] := by intro h1; rw [h1] at w2; exact h (by rw [w2.heap]; simp)
      obtain ⟨d', k1, k2, x, k3, k4⟩ := disAdvance_spec hA g hv hmin (qLeft o q.heap) w2 w3 hne
      exact ⟨_, k1, .inl ⟨rfl, x, k3, k4, Nat.lt_of_lt_of_le k2 w4⟩⟩
  skip := by
    rintro s v lo b n ⟨vs, hv, hmin, hdoc, hlo, hcur, hq⟩ hs hn
    obtain ⟨q, ents, dead, w1, w2, w3, w4⟩ := disQueue_spec (A := A) g hq
    show ∃ r, disSkipTo A o s n = .ok r ∧ _
    simp only [disSkipTo, w1, Res.ok_bind, hmin]
    by_cases h : q.heap.length < 1
    · rw [if_pos h]
      refine ⟨_, rfl, .inr ⟨rfl, fun x hx => ?_⟩⟩
      have : ents = [] := by
        have h1 : q.heap.length = 0 := by omega
        rw [w2.heap] at h1; simpa using h1
      subst this
      obtain ⟨u, hu, hux⟩ := (hv.docs x).mp hx
      have := w3.none u hu x hux
      omega
    · rw [if_neg h, if_neg (show ¬ n ≤ s.doc by omega)]
      have hne : ents ≠ [] := by intro h1; rw [h1] at w2; exact h (by rw [w2.heap]; simp)
      obtain ⟨r, k1, k2⟩ := disSkipLoop_spec hA g (v := v) (vs := vs) (n := n) (by omega) (hv.skips hs) (qLeft o q.heap + 1) s q ents dead
        (by rw [w2.heap, qLeft_map]; omega) hv hmin hne w2 w3.1
        (fun e he => ⟨(w3.2.1 e he).1, (w3.2.1 e he).2.1, fun _ x hx hxn => (w3.2.1 e he).2.2.2 x hx (by omega)⟩)
        (fun u hu x hx => by have := w3.2.2 u hu x hx; omega)
      refine ⟨r, k1, ?_⟩
      rcases k2 with ⟨a, b, x, c, e⟩ | h2
      · exact .inl ⟨a, x, c, e, by omega⟩
      · exact .inr h2
  doc := by
    rintro s v lo b ⟨vs, hv, hmin, hdoc, _⟩ _
    exact hdoc
  score := by
    rintro s v lo ⟨vs, hv, hmin, hdoc, hlo, hcur, hq⟩ h0
    obtain ⟨h1, h2, h3⟩ := hcur h0
    refine ⟨s.cum, s, ?_, fun hp => by rw [h2 hp, hv.sc lo h1], ⟨vs, hv, hmin, hdoc, hlo, hcur, hq⟩, Nat.le_refl _⟩
    simp only [disOps, h3, hv.cnt lo h1]

/-- A fresh disjunction scorer over fresh sub-scorers. -/
theorem disR_new {A : Arith S} {o : Ops σ S} {R : σ → View S → Int → Bool → Prop} {subs : List σ} {vs : List (View S)} {v : View S} {c : Bool}
    (hv : IsDis A c vs v) (h : All2 (fun s u => R s u (-1) false) subs vs) :
    disR P A o R (Dis.new A subs 1 c) v (-1) false :=
  ⟨vs, hv, rfl, rfl, by omega, by omega, .inl ⟨rfl, rfl, h⟩⟩

end Ferret.Scorer
