import Verif.Lemmas.ExcerptPick
import Verif.Lemmas.Highlight

namespace Ferret.Excerpt
open Ferret Ferret.Spec Ferret.PQ Ferret.MV Ferret.Fields Ferret.Fis

theorem sortIn_perm (e : Ex) : ∀ l : List Ex, (sortIn e l).Perm (e :: l) := by
  intro l
  induction l with
  | nil => exact List.Perm.refl _
  | cons x l ih =>
    unfold sortIn
    split
    · exact List.Perm.refl _
    · exact (ih.cons x).trans (List.Perm.swap e x l)

theorem sortEx_perm : ∀ l : List Ex, (sortEx l).Perm l := by
  intro l
  induction l with
  | nil => exact List.Perm.refl _
  | cons x l ih => exact (sortIn_perm x _).trans (ih.cons x)

theorem sortIn_sorted (e : Ex) : ∀ l : List Ex, (l.Pairwise fun a b => a.start ≤ b.start) → (sortIn e l).Pairwise fun a b => a.start ≤ b.start := by
  intro l
  induction l with
  | nil => intro _; simp [sortIn]
  | cons x l ih =>
    intro h
    have h' := List.pairwise_cons.1 h
    unfold sortIn
    split
    · rename_i hle
      refine List.pairwise_cons.2 ⟨?_, h⟩
      intro y hy
      rcases List.mem_cons.1 hy with rfl | hy
      · exact hle
      · have := h'.1 y hy; omega
    · rename_i hle
      refine List.pairwise_cons.2 ⟨?_, ih h'.2⟩
      intro y hy
      rcases List.mem_cons.1 ((sortIn_perm e l).mem_iff.1 hy) with rfl | hy
      · omega
      · exact h'.1 y hy

theorem sortEx_sorted : ∀ l : List Ex, (sortEx l).Pairwise fun a b => a.start ≤ b.start := by
  intro l
  induction l with
  | nil => exact List.Pairwise.nil
  | cons x l ih => exact sortIn_sorted x _ ih

/-- The offsets go forward and lie in a text of length `T`; those of the matches are theirs. -/
structure Laid (T : Int) (offsets : List (Int × Int)) (ms : List Mt) : Prop where
  mono : ∀ (i : Nat) a b, (fillIn offsets)[i]? = some a → (fillIn offsets)[i + 1]? = some b → a.1 ≤ b.1 ∧ a.2 ≤ b.2
  bound : ∀ (i : Nat) a, (fillIn offsets)[i]? = some a → 0 ≤ a.1 ∧ 0 ≤ a.2 ∧ a.2 ≤ T
  start : ∀ m ∈ ms, 0 ≤ m.start ∧ ∃ p p', offsets[m.start.toNat]? = some p ∧ (fillIn offsets)[m.start.toNat]? = some p' ∧ p.1 = m.so ∧ p'.1 = m.so
  stop : ∀ m ∈ ms, 0 ≤ m.stop ∧ ∃ p p', offsets[m.stop.toNat]? = some p ∧ (fillIn offsets)[m.stop.toNat]? = some p' ∧ p.2 = m.eo ∧ p'.2 = m.eo

/-- The left end of an excerpt is right. -/
structure LeftOk (fil : List (Int × Int)) (ms : List Mt) (e : Ex) : Prop where
  first : 0 ≤ e.start
  pos : 0 ≤ e.startPos ∧ e.startPos < fil.length
  so : 0 ≤ e.so
  before : 0 < e.startPos → ∀ o, fil[e.startPos.toNat]? = some o → o.1 ≤ e.so
  covers : ∀ (k : Nat) m, e.start ≤ k → ms[k]? = some m → e.so ≤ m.so

/-- The right end of an excerpt is right. -/
structure RightOk (T : Int) (fil : List (Int × Int)) (ms : List Mt) (e : Ex) : Prop where
  last : -1 ≤ e.stop ∧ e.stop < ms.length
  pos : 0 ≤ e.stopPos ∧ e.stopPos < fil.length
  eo : e.eo ≤ T
  after : ∀ o, fil[e.stopPos.toNat]? = some o → e.eo ≤ o.2
  covers : ∀ (k : Nat) m, (k : Int) ≤ e.stop → ms[k]? = some m → m.eo ≤ e.eo

/-- An excerpt in place of `n` is right. -/
structure ExOk (T len : Int) (fil : List (Int × Int)) (ms : List Mt) (n : Nat) (e : Ex) : Prop where
  left : LeftOk fil ms e
  right : RightOk T fil ms e
  run : e.start ≤ e.stop + 1
  order : e.so ≤ e.eo
  short : e.eo - e.so ≤ n * len

/-- One excerpt is not after another. -/
structure Before (a b : Ex) : Prop where
  run : a.start ≤ b.start
  stop : a.stop ≤ b.stop
  so : a.so ≤ b.so

theorem mergeIn_spec {T len : Int} {fil : List (Int × Int)} {ms : List Mt} : ∀ (es : List Ex) (e : Ex) (k merged : Nat),
    merged < k → 1 ≤ merged → ExOk T len fil ms merged e → (∀ x ∈ es, ExOk T len fil ms 1 x ∧ e.start ≤ x.start ∧ e.so ≤ x.so ∧ e.stop ≤ x.stop) →
    (es.Pairwise fun a b => a.stop ≤ b.stop) →
    ExOk T len fil ms (mergeIn len e es k merged).2 (mergeIn len e es k merged).1 ∧
      merged ≤ (mergeIn len e es k merged).2 ∧ (mergeIn len e es k merged).2 + 1 ≤ k + es.length ∧
      (mergeIn len e es k merged).1.start = e.start ∧ e.stop ≤ (mergeIn len e es k merged).1.stop ∧
      ∀ (i : Nat) x, es[i]? = some x → i + k ≤ (mergeIn len e es k merged).2 → x.stop ≤ (mergeIn len e es k merged).1.stop := by
  intro es
  induction es with
  | nil =>
    intro e k merged h1 h2 h3 _ _
    refine ⟨h3, by simp [mergeIn], by simp only [mergeIn, List.length_nil]; omega, rfl, by simp [mergeIn], by intro i x hx; simp at hx⟩
  | cons y es ih =>
    intro e k merged h1 h2 h3 h4 h5
    obtain ⟨y1, y2, y3, y4⟩ := h4 y (by simp)
    have h5' := List.pairwise_cons.1 h5
    unfold mergeIn
    by_cases hc : y.eo - e.so < (k : Int) * len
    · rw [if_pos hc]
      have hok : ExOk T len fil ms k { e with stop := y.stop, stopPos := y.stopPos, eo := y.eo } := by
        refine ⟨⟨h3.left.first, h3.left.pos, h3.left.so, h3.left.before, h3.left.covers⟩,
          ⟨y1.right.last, y1.right.pos, y1.right.eo, y1.right.after, y1.right.covers⟩, ?_, ?_, ?_⟩
        · have := y1.run; simp only; omega
        · have := y1.order; simp only; omega
        · simp only; omega
      obtain ⟨i1, i2, i3, i4, i5, i6⟩ := ih _ (k + 1) k (by omega) (by omega) hok
        (fun x hx => ⟨(h4 x (by simp [hx])).1, (h4 x (by simp [hx])).2.1, (h4 x (by simp [hx])).2.2.1, h5'.1 x hx⟩) h5'.2
      refine ⟨i1, by omega, by simp only [List.length_cons]; omega, i4, by simp only at i5; omega, ?_⟩
      intro i x hx hi
      cases i with
      | zero => simp at hx; subst hx; exact i5
      | succ i => exact i6 i x (by simpa using hx) (by omega)
    · rw [if_neg hc]
      obtain ⟨i1, i2, i3, i4, i5, i6⟩ := ih e (k + 1) merged (by omega) h2 h3 (fun x hx => h4 x (by simp [hx])) h5'.2
      refine ⟨i1, i2, by simp only [List.length_cons]; omega, i4, i5, ?_⟩
      intro i x hx hi
      cases i with
      | zero =>
        simp at hx; subst hx
        -- a later one was merged
        cases es with
        | nil => simp only [mergeIn] at hi; omega
        | cons z es =>
          have hk : (mergeIn len e (z :: es) (k + 1) merged).2 ≠ k := by
            intro hk
            have aux : ∀ (es : List Ex) (e : Ex) (j m : Nat), m < j → (mergeIn len e es j m).2 = m ∨ j ≤ (mergeIn len e es j m).2 := by
              intro es
              induction es with
              | nil => intro e j m _; exact .inl rfl
              | cons w es ih =>
                intro e j m hm
                unfold mergeIn
                split
                · rcases ih { e with stop := w.stop, stopPos := w.stopPos, eo := w.eo } (j + 1) j (by omega) with h | h <;> right <;> omega
                · rcases ih e (j + 1) m (by omega) with h | h
                  · exact .inl h
                  · right; omega
            rcases aux (z :: es) e (k + 1) merged (by omega) with h | h <;> omega
          have hz := i6 0 z rfl (by omega)
          have := h5'.1 z (by simp)
          omega
      | succ i => exact i6 i x (by simpa using hx) (by omega)

theorem readAt_ok {α : Type} {l : List α} {i : Int} {a : α} (h0 : 0 ≤ i) (h : l[i.toNat]? = some a) : readAt l i = .ok a := by
  unfold readAt
  rw [if_neg (by omega), h]
  rfl

theorem get_int {α : Type} {l : List α} {i : Int} (h0 : 0 ≤ i) (h : i < l.length) : ∃ a, l[i.toNat]? = some a :=
  ⟨l[i.toNat]'(by omega), List.getElem?_eq_getElem (by omega)⟩

/-- The offsets go forward from one position to the next and lie in a text of length `T`. -/
structure FillOk (T : Int) (fil : List (Int × Int)) : Prop where
  mono : ∀ (i : Nat) a b, fil[i]? = some a → fil[i + 1]? = some b → a.1 ≤ b.1 ∧ a.2 ≤ b.2
  bound : ∀ (i : Nat) a, fil[i]? = some a → 0 ≤ a.1 ∧ 0 ≤ a.2 ∧ a.2 ≤ T

theorem growLeft_spec {T len : Int} {fil : List (Int × Int)} (hfil : FillOk T fil) {ms : List Mt} {n : Nat} {e : Ex} (h : ExOk T len fil ms n e) :
    ∃ e' b, growLeft (n * len) fil e = .ok (e', b) ∧ ExOk T len fil ms n e' ∧ e'.start = e.start ∧ e'.stop = e.stop ∧ e'.stopPos = e.stopPos ∧
      (b = true → e'.startPos + 1 = e.startPos) ∧ (b = false → e' = e) := by
  unfold growLeft
  split
  · rename_i hp
    have h1 := h.left.pos
    obtain ⟨o, ho⟩ := get_int (l := fil) (i := e.startPos - 1) (by omega) (by omega)
    obtain ⟨o', ho'⟩ := get_int (l := fil) (i := e.startPos) (by omega) (by omega)
    rw [readAt_ok (by omega) ho, Res.ok_bind]
    have hm := hfil.mono (e.startPos - 1).toNat o o' ho (by rw [show (e.startPos - 1).toNat + 1 = e.startPos.toNat by omega]; exact ho')
    have hb := hfil.bound _ o ho
    have hbe := h.left.before hp o' ho'
    split
    · rename_i hlt
      refine ⟨_, true, rfl, ⟨⟨h.left.first, by simp only; omega, hb.1, ?_, ?_⟩, ⟨h.right.last, h.right.pos, h.right.eo, h.right.after, h.right.covers⟩, h.run, ?_, ?_⟩,
        rfl, rfl, rfl, fun _ => by simp only; omega, fun hf => by cases hf⟩
      · intro _ x hx
        simp only at hx
        rw [ho] at hx
        cases hx
        exact Int.le_refl _
      · intro k m hk hm'
        have := h.left.covers k m hk hm'
        simp only
        omega
      · have := h.order; simp only; omega
      · simp only; omega
    · exact ⟨e, false, rfl, h, rfl, rfl, rfl, (fun hf => by cases hf), fun _ => rfl⟩
  · exact ⟨e, false, rfl, h, rfl, rfl, rfl, (fun hf => by cases hf), fun _ => rfl⟩

theorem growRight_spec {T len : Int} {fil : List (Int × Int)} (hfil : FillOk T fil) {ms : List Mt} {n : Nat} {e : Ex} (h : ExOk T len fil ms n e) :
    ∃ e' b, growRight (n * len) fil e = .ok (e', b) ∧ ExOk T len fil ms n e' ∧ e'.start = e.start ∧ e'.stop = e.stop ∧ e'.startPos = e.startPos ∧
      (b = true → e'.stopPos = e.stopPos + 1) ∧ (b = false → e' = e) := by
  unfold growRight
  split
  · rename_i hp
    have h1 := h.right.pos
    obtain ⟨o, ho⟩ := get_int (l := fil) (i := e.stopPos + 1) (by omega) (by omega)
    obtain ⟨o', ho'⟩ := get_int (l := fil) (i := e.stopPos) (by omega) (by omega)
    rw [readAt_ok (by omega) ho, Res.ok_bind]
    have hm := hfil.mono e.stopPos.toNat o' o ho' (by rw [show e.stopPos.toNat + 1 = (e.stopPos + 1).toNat by omega]; exact ho)
    have hb := hfil.bound _ o ho
    have hbe := h.right.after o' ho'
    split
    · rename_i hlt
      refine ⟨_, true, rfl, ⟨⟨h.left.first, h.left.pos, h.left.so, h.left.before, h.left.covers⟩, ⟨h.right.last, by simp only; omega, hb.2.2, ?_, ?_⟩, h.run, ?_, ?_⟩,
        rfl, rfl, rfl, fun _ => rfl, fun hf => by cases hf⟩
      · intro x hx
        simp only at hx
        rw [ho] at hx
        cases hx
        exact Int.le_refl _
      · intro k m hk hm'
        have := h.right.covers k m hk hm'
        simp only
        omega
      · have := h.order; simp only; omega
      · simp only; omega
    · exact ⟨e, false, rfl, h, rfl, rfl, rfl, (fun hf => by cases hf), fun _ => rfl⟩
  · exact ⟨e, false, rfl, h, rfl, rfl, rfl, (fun hf => by cases hf), fun _ => rfl⟩

theorem expandLoop_spec {T len : Int} {fil : List (Int × Int)} (hfil : FillOk T fil) {ms : List Mt} {n : Nat} : ∀ (fuel : Nat) (e : Ex),
    ExOk T len fil ms n e → e.startPos + ((fil.length : Int) - e.stopPos) + 1 ≤ fuel →
    ∃ e', expandLoop (n * len) fil fuel e = .ok e' ∧ ExOk T len fil ms n e' ∧ e'.start = e.start ∧ e'.stop = e.stop := by
  intro fuel
  induction fuel with
  | zero =>
    intro e h hf
    have := h.left.pos
    have := h.right.pos
    omega
  | succ fuel ih =>
    intro e h hf
    obtain ⟨e1, b1, g1, g2, g3, g4, g5, g6, g7⟩ := growLeft_spec hfil h
    obtain ⟨e2, b2, r1, r2, r3, r4, r5, r6, r7⟩ := growRight_spec hfil g2
    unfold expandLoop
    rw [g1, Res.ok_bind]
    simp only []
    rw [r1, Res.ok_bind]
    simp only []
    cases b1 with
    | true =>
      have := g6 rfl
      simp only [Bool.true_or, if_true]
      have hs : e2.stopPos ≥ e1.stopPos := by
        cases b2 with
        | true => have := r6 rfl; omega
        | false => rw [r7 rfl]; omega
      obtain ⟨e', i1, i2, i3, i4⟩ := ih e2 r2 (by omega)
      exact ⟨e', i1, i2, by rw [i3, r3, g3], by rw [i4, r4, g4]⟩
    | false =>
      have := g7 rfl
      subst this
      cases b2 with
      | true =>
        have := r6 rfl
        simp only [Bool.false_or, if_true]
        obtain ⟨e', i1, i2, i3, i4⟩ := ih e2 r2 (by omega)
        exact ⟨e', i1, i2, by rw [i3, r3], by rw [i4, r4]⟩
      | false =>
        have := r7 rfl
        subst this
        exact ⟨e2, rfl, r2, rfl, rfl⟩

theorem expand_spec {T len : Int} {fil : List (Int × Int)} (hfil : FillOk T fil) {ms : List Mt} {n : Nat} {e : Ex} (h : ExOk T len fil ms n e) :
    ∃ e', expand (n * len) fil e = .ok e' ∧ ExOk T len fil ms n e' ∧ e'.start = e.start ∧ e'.stop = e.stop := by
  have := h.left.pos
  have := h.right.pos
  exact expandLoop_spec hfil _ e h (by omega)

theorem forward_run (text : List Byte) {B : Int} (hB : B ≤ text.length) : ∀ (l : List Mt) (last : Int), 0 ≤ last → last ≤ B →
    (∀ m ∈ l, last ≤ m.so ∧ m.so ≤ m.eo ∧ m.eo ≤ B) → (l.Pairwise fun a b => a.eo ≤ b.so) →
    Forward text last (l.map fun m => (m.so, m.eo)) ∧ endOf last (l.map fun m => (m.so, m.eo)) ≤ B := by
  intro l
  induction l with
  | nil => intro last h0 h1 _ _; exact ⟨⟨h0, by omega⟩, h1⟩
  | cons m l ih =>
    intro last h0 h1 h2 h3
    obtain ⟨a1, a2, a3⟩ := h2 m (by simp)
    have h3' := List.pairwise_cons.1 h3
    obtain ⟨i1, i2⟩ := ih m.eo (by omega) a3 (fun x hx => ⟨h3'.1 x hx, (h2 x (by simp [hx])).2⟩) h3'.2
    exact ⟨⟨h0, a1, a2, i1⟩, i2⟩

theorem runOf_ok {T len : Int} {fil : List (Int × Int)} {ms : List Mt} {n : Nat} {e : Ex} (h : ExOk T len fil ms n e) :
    runOf ms e.start e.stop = .ok ((ms.drop e.start.toNat).take (e.stop + 1 - e.start).toNat) := by
  have h1 := h.left.first
  have h2 := h.right.last
  unfold runOf
  split
  · rw [if_neg (by omega)]
  · have := h.run
    rw [show (e.stop + 1 - e.start).toNat = 0 by omega]
    simp

theorem run_get {ms : List Mt} {s c i : Nat} {m : Mt} (h : ((ms.drop s).take c)[i]? = some m) : i < c ∧ ms[s + i]? = some m := by
  rw [List.getElem?_take] at h
  split at h
  · rw [List.getElem?_drop] at h
    exact ⟨by assumption, h⟩
  · cases h

section
variable {Z : Zip} (hZ : Lawful Z) {fdt : List Byte} {s : FI × DocF} (hs : GoodField Z s.1 s.2) (hu : isCompressed s.1 = false)
  (hlt : (joined s.2.data).length < 2 ^ 31) (hne : s.2.data ≠ [])
include hZ hs hu hlt hne

theorem getStr_spec {len : Int} {fil : List (Int × Int)} {ms : List Mt} (hf : Fit len ms) {n : Nat} {e : Ex}
    (h : ExOk (joined s.2.data).length len fil ms n e) {f : LazyF} (hl : LInv Z fdt s f) (pre post ell : List Byte) :
    ∃ f' out x, getStr Z fdt f ms pre post ell e = .ok (f', out) ∧ LInv Z fdt s f' ∧
      ShowsText (joined s.2.data) (ms.map hitOf) pre post ell x out ∧ (x.first : Int) = e.start ∧ (x.first : Int) + x.count = e.stop + 1 ∧
      x.merged = n ∧ x.upto - x.from_ ≤ n * len + ell.length := by
  have h1 := h.left.first
  have h2 := h.right.last
  have h3 := h.run
  have h4 := h.left.so
  have h5 := h.order
  have h6 := h.right.eo
  have hrun := runOf_ok h
  generalize hrn : (ms.drop e.start.toNat).take (e.stop + 1 - e.start).toNat = run at hrun
  have hrget : ∀ (i : Nat) m, run[i]? = some m → i < (e.stop + 1 - e.start).toNat ∧ ms[e.start.toNat + i]? = some m := by
    intro i m hm
    rw [← hrn] at hm
    exact run_get hm
  have hrlen : run.length = (e.stop + 1 - e.start).toNat := by
    rw [← hrn]
    simp only [List.length_take, List.length_drop]
    omega
  obtain ⟨hfw, hend⟩ := forward_run (joined s.2.data) h6 run e.so h4 h5 (by
    intro m hm
    obtain ⟨i, hi⟩ := List.getElem?_of_mem hm
    obtain ⟨i1, i2⟩ := hrget i m hi
    exact ⟨h.left.covers _ m (by omega) i2, hf.fine m (List.mem_of_getElem? i2), h.right.covers _ m (by omega) i2⟩) (by
    rw [← hrn]
    exact (hf.forward.sublist (List.drop_sublist _ _)).sublist (List.take_sublist _ _))
  generalize hos : (run.map fun m => (m.so, m.eo)) = os at hfw hend
  have holen : os.length = run.length := by rw [← hos]; simp
  obtain ⟨f1, e1, i1⟩ := highlightLoop_spec hZ hs hu hlt pre post os f e.so hl hfw
  have hb := hfw.endOf
  have hlen1 := plain_len hZ hs hu hlt i1 hne
  generalize heo : (if f1.len - e.eo ≤ ell.length then (f1.len : Int) else e.eo) = eo
  have heo1 : e.eo ≤ eo ∧ eo ≤ (joined s.2.data).length ∧ (eo = e.eo ∨ (eo = (joined s.2.data).length ∧ eo - e.eo ≤ ell.length)) := by
    rw [← heo, hlen1]
    split <;> omega
  obtain ⟨f2, e2, i2⟩ := copyBytes_spec hZ hs hu hlt i1 (a := endOf e.so os) (b := eo) (by omega) (by omega) (by omega)
  have hlen2 := plain_len hZ hs hu hlt i2 hne
  have hplain := partsOf_plain (joined s.2.data) os e.so hfw
  have hpl : (partsOf (joined s.2.data) e.so os).length = (e.stop + 1 - e.start).toNat := by rw [partsOf_length, holen, hrlen]
  have a1 := span_length (joined s.2.data) h4 hb.1 hb.2
  have a2 := span_length (joined s.2.data) (a := endOf e.so os) (b := eo) (by omega) (by omega) (by omega)
  refine ⟨f2, (if 0 < e.so then ell else []) ++ ((((partsOf (joined s.2.data) e.so os).map fun p => p.1 ++ pre ++ p.2 ++ post).flatten) ++
      (span (joined s.2.data) (endOf e.so os) eo ++ (if eo < (joined s.2.data).length then ell else []))),
    ⟨e.start.toNat, (e.stop + 1 - e.start).toNat, e.so, eo, n⟩, ?_, i2, ⟨h4, by simp only; omega, by simp only; omega,
      ⟨partsOf (joined s.2.data) e.so os, span (joined s.2.data) (endOf e.so os) eo⟩, ?_, hpl, ?_, ?_⟩, by simp only; omega, by simp only; omega, rfl, ?_⟩
  · unfold getStr
    simp only [hrun, Res.ok_bind, hos, e1, heo, e2, hlen2]
    rw [if_pos]
    · simp only [List.length_append, gt_iff_lt]
      rw [tagged_length, hplain, hpl]
      have hmul : ((e.stop + 1 - e.start).toNat * (pre.length + post.length) : Nat) = (e.stop - e.start + 1) * ((pre.length + post.length : Nat) : Int) := by
        rw [Int.natCast_mul, show (((e.stop + 1 - e.start).toNat : Nat) : Int) = e.stop - e.start + 1 by omega]
      rw [← hmul]
      generalize (e.stop + 1 - e.start).toNat * (pre.length + post.length) = A
      have hl1 : (if 0 < e.so then ell else []).length ≤ ell.length := by split <;> simp
      have hl2 : ((if eo < (joined s.2.data).length then ell else []).length : Int) + (eo - e.eo) ≤ ell.length := by
        rcases heo1.2.2 with h | ⟨h, h'⟩
        · rw [h]; split <;> simp
        · rw [if_neg (by omega)]; simpa using h'
      generalize (if 0 < e.so then ell else []).length = L1 at *
      generalize (if eo < (joined s.2.data).length then ell else []).length = L2 at *
      push_cast
      omega
  · unfold Cuts.plain
    simp only
    rw [hplain, span_append _ h4 hb.1 (by omega)]
    rfl
  · intro i hi
    simp only at hi
    have hri : run[i]? = some (run[i]'(by omega)) := List.getElem?_eq_getElem (by omega)
    generalize run[i]'(by omega) = m at hri
    obtain ⟨_, hm⟩ := hrget i m hri
    obtain ⟨p, p1, p2, p3⟩ := partsOf_tags (joined s.2.data) os e.so hfw i m.so m.eo (by rw [← hos]; simp [hri])
    refine ⟨hitOf m, by simp [hm], p, p1, ?_, ?_⟩
    · simp only [hitOf]; omega
    · simp only [hitOf]; omega
  · unfold Cuts.tagged
    simp only [List.append_assoc]
  · have := h.short
    simp only
    rcases heo1.2.2 with h | ⟨_, h'⟩ <;> omega

theorem writeLoop_spec {len : Int} {offsets : List (Int × Int)} {ms : List Mt} (hf : Fit len ms) (hfil : FillOk (joined s.2.data).length (fillIn offsets))
    (pre post ell : List Byte) : ∀ (n : Nat) (f : LazyF) (es : List Ex), es.length ≤ n → LInv Z fdt s f →
    (∀ e ∈ es, ExOk (joined s.2.data).length len (fillIn offsets) ms 1 e) → es.Pairwise Before →
    ∃ outs xs, writeLoop Z fdt ms offsets len pre post ell n f es = .ok outs ∧
      AllShow (joined s.2.data) (ms.map hitOf) pre post ell xs outs ∧ (xs.map (·.merged)).sum = es.length ∧
      (∀ x ∈ xs, 1 ≤ x.merged ∧ x.upto - x.from_ ≤ x.merged * len + ell.length) ∧
      ∀ e ∈ es, ∃ x ∈ xs, (x.first : Int) ≤ e.start ∧ e.stop < (x.first : Int) + x.count := by
  intro n
  induction n with
  | zero =>
    intro f es hn _ _ _
    cases es with
    | nil => exact ⟨[], [], rfl, .nil, rfl, by simp, by simp⟩
    | cons e es => simp at hn
  | succ n ih =>
    intro f es hn hl hok hp
    cases es with
    | nil => exact ⟨[], [], rfl, .nil, rfl, by simp, by simp⟩
    | cons ei es =>
      have hp' := List.pairwise_cons.1 hp
      obtain ⟨m1, m2, m3, m4, m5, m6⟩ := mergeIn_spec (T := (joined s.2.data).length) (fil := fillIn offsets) (ms := ms) (len := len) es ei 2 1 (by omega) (by omega)
        (hok ei (by simp)) (fun x hx => ⟨hok x (by simp [hx]), (hp'.1 x hx).run, (hp'.1 x hx).so, (hp'.1 x hx).stop⟩)
        (hp'.2.imp fun h => h.stop)
      generalize hm : mergeIn len ei es 2 1 = m at m1 m2 m3 m4 m5 m6
      obtain ⟨e, x1, x2, x3, x4⟩ := expand_spec hfil m1
      obtain ⟨f', out, x, g1, g2, g3, g4, g5, g6, g7⟩ := getStr_spec hZ hs hu hlt hne hf x2 hl pre post ell
      obtain ⟨outs, xs, i1, i2, i3, i4, i5⟩ := ih f' ((ei :: es).drop m.2) (by
          simp only [List.length_drop, List.length_cons] at hn ⊢; omega) g2 (fun y hy => hok y (List.mem_of_mem_drop hy))
        (hp.sublist (List.drop_sublist _ _))
      refine ⟨out :: outs, x :: xs, ?_, .cons g3 i2, ?_, ?_, ?_⟩
      · unfold writeLoop
        simp only [hm, x1, Res.ok_bind, g1, i1]
      · simp only [List.map_cons, List.sum_cons, i3, g6, List.length_drop, List.length_cons]
        omega
      · intro y hy
        rcases List.mem_cons.1 hy with rfl | hy
        · rw [g6]; exact ⟨m2, g7⟩
        · exact i4 y hy
      · intro y hy
        obtain ⟨i, hi⟩ := List.getElem?_of_mem hy
        by_cases him : i < m.2
        · refine ⟨x, by simp, ?_, ?_⟩
          · have : ei.start ≤ y.start := by
              rcases List.mem_cons.1 hy with rfl | hy
              · exact Int.le_refl _
              · exact (hp'.1 y hy).run
            omega
          · have : y.stop ≤ m.1.stop := by
              cases i with
              | zero => simp at hi; subst hi; exact m5
              | succ i => exact m6 i y (by simpa using hi) (by omega)
            omega
        · have : y ∈ (ei :: es).drop m.2 := by
            apply List.mem_of_getElem? (i := i - m.2)
            rw [List.getElem?_drop, show m.2 + (i - m.2) = i by omega]
            exact hi
          obtain ⟨z, z1, z2, z3⟩ := i5 y this
          exact ⟨z, by simp [z1], z2, z3⟩

end

/-- An excerpt that is a window, in its place. -/
structure Placed (len : Int) (ms : List Mt) (e : Ex) : Prop where
  win : IsWin len ms e
  left : ∀ m, ms[e.start.toNat]? = some m → e.startPos = m.start ∧ e.so = m.so
  right : ∀ m, ms[e.stop.toNat]? = some m → e.stopPos = m.stop ∧ e.eo = m.eo

theorem place_spec {T len : Int} {offsets : List (Int × Int)} {ms : List Mt} (hl : Laid T offsets ms) : ∀ es : List Ex, (∀ e ∈ es, IsWin len ms e) →
    ∃ es', place ms offsets es = .ok es' ∧ es'.map keyOf = es.map keyOf ∧ ∀ e ∈ es', Placed len ms e := by
  intro es
  induction es with
  | nil => intro _; exact ⟨[], rfl, rfl, by simp⟩
  | cons e es ih =>
    intro h
    obtain ⟨es', i1, i2, i3⟩ := ih (fun x hx => h x (by simp [hx]))
    have hw := h e (by simp)
    obtain ⟨k1, k2, k3⟩ := hw.key
    have o1 := k3.order
    have o2 := k3.there
    simp only [List.length_map] at o2
    obtain ⟨a, ha⟩ := get_int (l := ms) (i := e.start) (by omega) (by omega)
    obtain ⟨b, hb⟩ := get_int (l := ms) (i := e.stop) (by omega) (by omega)
    obtain ⟨p0, p, _, hp, _, hp2, _⟩ := hl.start a (List.mem_of_getElem? ha)
    obtain ⟨q0, q, _, hq, _, hq2, _⟩ := hl.stop b (List.mem_of_getElem? hb)
    refine ⟨{ e with startPos := a.start, stopPos := b.stop, so := p.1, eo := q.2 } :: es', ?_, ?_, ?_⟩
    · unfold place
      rw [readAt_ok (by omega) ha, Res.ok_bind, readAt_ok (by omega) hb, Res.ok_bind, readAt_ok p0 hp, Res.ok_bind, readAt_ok q0 hq, Res.ok_bind, i1, Res.ok_bind]
    · simp only [List.map_cons, i2]
      rfl
    · intro x hx
      rcases List.mem_cons.1 hx with rfl | hx
      · refine ⟨hw, ?_, ?_⟩
        · intro m hm
          simp only at hm
          rw [ha] at hm; cases hm
          exact ⟨rfl, hp2⟩
        · intro m hm
          simp only at hm
          rw [hb] at hm; cases hm
          exact ⟨rfl, hq2⟩
      · exact i3 x hx

theorem placed_ok {T len : Int} {offsets : List (Int × Int)} {ms : List Mt} (hf : Fit len ms) (hl : Laid T offsets ms) {e : Ex} (h : Placed len ms e) :
    ExOk T len (fillIn offsets) ms 1 e := by
  obtain ⟨k1, k2, k3⟩ := h.win.key
  have o1 := k3.order
  have o2 := k3.there
  simp only [List.length_map] at o2
  obtain ⟨a, ha⟩ := get_int (l := ms) (i := e.start) (by omega) (by omega)
  obtain ⟨b, hb⟩ := get_int (l := ms) (i := e.stop) (by omega) (by omega)
  obtain ⟨l1, l2⟩ := h.left a ha
  obtain ⟨r1, r2⟩ := h.right b hb
  obtain ⟨p0, _, p, _, hp, _, hp2⟩ := hl.start a (List.mem_of_getElem? ha)
  obtain ⟨q0, _, q, _, hq, _, hq2⟩ := hl.stop b (List.mem_of_getElem? hb)
  have bp := hl.bound _ p hp
  have bq := hl.bound _ q hq
  have hpl := (List.getElem?_eq_some_iff.1 hp).1
  have hql := (List.getElem?_eq_some_iff.1 hq).1
  have hso : a.so ≤ b.so := hf.so_le (by omega) ha hb
  have hfb := hf.fine b (List.mem_of_getElem? hb)
  have hwi := k3.within (hitOf a) (hitOf b) (by rw [List.getElem?_map, show (keyOf e).1 = e.start.toNat by omega, ha]; rfl)
    (by rw [List.getElem?_map, show (keyOf e).2 = e.stop.toNat by omega, hb]; rfl)
  simp only [hitOf] at hwi
  refine ⟨⟨by omega, ⟨by omega, by omega⟩, by omega, ?_, ?_⟩, ⟨⟨by omega, by omega⟩, ⟨by omega, by omega⟩, by omega, ?_, ?_⟩, by omega, by omega, by omega⟩
  · intro _ o ho
    rw [l1, hp] at ho
    cases ho
    omega
  · intro k m hk hm
    have := hf.so_le (show e.start.toNat ≤ k by omega) ha hm
    omega
  · intro o ho
    rw [r1, hq] at ho
    cases ho
    omega
  · intro k m hk hm
    have := hf.eo_le (show k ≤ e.stop.toNat by omega) hm hb
    omega

theorem empty_ok {T len : Int} {offsets : List (Int × Int)} {ms : List Mt} (hf : Fit len ms) (hl : Laid T offsets ms) (hne : ms ≠ []) :
    ExOk T len (fillIn offsets) ms 1 empty := by
  cases hms : ms with
  | nil => exact absurd hms hne
  | cons a r =>
    have ha : a ∈ ms := by rw [hms]; simp
    obtain ⟨p0, _, p, _, hp, _, hp2⟩ := hl.start a ha
    obtain ⟨q0, _, q, _, hq, _, hq2⟩ := hl.stop a ha
    have hpl := (List.getElem?_eq_some_iff.1 hp).1
    have bq := hl.bound _ q hq
    have h1 := hf.short a ha
    have h2 := hf.fine a ha
    rw [← hms]
    refine ⟨⟨by simp [empty], ⟨by simp [empty], by simp only [empty]; omega⟩, by simp [empty], by simp [empty], ?_⟩,
      ⟨⟨by simp [empty], by simp only [empty]; omega⟩, ⟨by simp [empty], by simp only [empty]; omega⟩, by simp only [empty]; omega, ?_, ?_⟩, by simp [empty], by simp [empty],
        by simp only [empty]; omega⟩
    · intro k m _ hm
      obtain ⟨_, _, p', _, hp', _, hp2'⟩ := hl.start m (List.mem_of_getElem? hm)
      have := hl.bound _ p' hp'
      simp only [empty]
      omega
    · intro o ho
      simp only [empty]
      exact (hl.bound _ o ho).2.1
    · intro k m hk _
      simp only [empty] at hk
      omega

theorem placed_before {T len : Int} {offsets : List (Int × Int)} {ms : List Mt} (hf : Fit len ms) (hl : Laid T offsets ms) {a b : Ex}
    (ha : Placed len ms a) (hb : Placed len ms b) (h : a.start ≤ b.start) : Before a b := by
  obtain ⟨a1, a2, a3⟩ := ha.win.key
  obtain ⟨b1, b2, b3⟩ := hb.win.key
  have o1 := a3.order
  have o2 := a3.there
  have o3 := b3.order
  have o4 := b3.there
  simp only [List.length_map] at o2 o4
  obtain ⟨x, hx⟩ := get_int (l := ms) (i := a.start) (by omega) (by omega)
  obtain ⟨y, hy⟩ := get_int (l := ms) (i := b.start) (by omega) (by omega)
  have h1 := hf.so_le (show a.start.toNat ≤ b.start.toNat by omega) hx hy
  have h2 := IsWindow.mono hf (s := (keyOf a).1) (t := (keyOf a).2) (s' := (keyOf b).1) (t' := (keyOf b).2) a3 b3 (by omega)
  exact ⟨h, by omega, by rw [(ha.left x hx).2, (hb.left y hy).2]; exact h1⟩

theorem empty_before {T len : Int} {offsets : List (Int × Int)} {ms : List Mt} (hl : Laid T offsets ms) {b : Ex}
    (hb : Placed len ms b) : Before empty b := by
  obtain ⟨b1, b2, b3⟩ := hb.win.key
  have o3 := b3.order
  have o4 := b3.there
  simp only [List.length_map] at o4
  obtain ⟨y, hy⟩ := get_int (l := ms) (i := b.start) (by omega) (by omega)
  obtain ⟨_, _, p', _, hp', _, hp2'⟩ := hl.start y (List.mem_of_getElem? hy)
  have := hl.bound _ p' hp'
  have := (hb.left y hy).2
  exact ⟨by simp only [empty]; omega, by simp only [empty]; omega, by simp only [empty]; omega⟩

end Ferret.Excerpt
