import Verif.Spec.Span

/-! The contract of span enumerators, and the enumerator of the spans of a term. -/

namespace Ferret.Span

open Ferret.Phrase (Tde tdeNext tdeSkipTo tdeNextPosition intMax DocsOK)
open Ferret.Post (Posting)
open Ferret.Spec (SpLe SpLex Proper)

variable {σ : Type}

/-- In order, and of an index. -/
def Ord (L : List Sp) : Prop := L.Pairwise SpLe ∧ ∀ x ∈ L, Proper x

theorem Ord.sub {L K : List Sp} (h : Ord L) (s : K.Sublist L) : Ord K :=
  ⟨h.1.sublist s, fun x m => h.2 x (s.subset m)⟩

theorem Ord.tail {c : Option Sp} {L : List Sp} (h : Ord (c.toList ++ L)) : Ord L := h.sub (List.sublist_append_right _ _)

/-- What may be asked of an enumerator: jumps; where it is before it has moved; where it is after the end. -/
structure Caps where
  skips : Bool
  early : Bool
  late : Bool

/-- The result of a move when the spans `L` are ahead. -/
def Stepped (R : σ → Caps → Option Sp → List Sp → Prop) (D : σ → Caps → Prop) (k : Caps) (r : Bool × σ) : List Sp → Prop
  | [] => r.1 = false ∧ D r.2 k
  | x :: L => r.1 = true ∧ R r.2 k (some x) L

/-- A jump to `t` is one ahead. -/
def Before (t : Int) : Option Sp → Prop
  | none => 0 ≤ t
  | some x => x.doc < t

/-- `before t x`: the document of `x` is before `t`. -/
def docLt (t : Int) (x : Sp) : Bool := decide (x.doc < t)

/-- `R s k c L`: the enumerator is at `c`, the spans `L` are ahead. `D s k`: it is at the end. -/
structure Good (o : Ops σ) (R : σ → Caps → Option Sp → List Sp → Prop) (D : σ → Caps → Prop) : Prop where
  left : ∀ {s k c L}, R s k c L → L.length ≤ o.left s
  cur : ∀ {s k x L}, R s k (some x) L → o.cur s = .ok x
  early : ∀ {s k L}, R s k none L → k.early = true → ∃ y, o.cur s = .ok y ∧ y.doc = -1
  next : ∀ {s k c L}, R s k c L → Ord (c.toList ++ L) → ∃ r, o.next s = .ok r ∧ Stepped R D k r L
  skip : ∀ {s k c L t}, R s k c L → Ord (c.toList ++ L) → k.skips = true → Before t c →
    ∃ r, o.skipTo s t = .ok r ∧ Stepped R D k r (L.dropWhile (docLt t))
  late : ∀ {s k}, D s k → k.late = true → (∃ y, o.cur s = .ok y) ∧ ∀ t, ∃ s', o.skipTo s t = .ok (false, s') ∧ D s' k

/-- Going through the spans gives those ahead. -/
theorem collect_spec {o : Ops σ} {R D} (g : Good o R D) : ∀ (fuel : Nat) (L : List Sp) (s : σ) (k : Caps) (c : Option Sp),
    R s k c L → Ord (c.toList ++ L) → L.length < fuel → collect o fuel s = .ok L
  | 0, _, _, _, _, _, _, h => by omega
  | fuel + 1, L, s, k, c, hR, ho, hf => by
    obtain ⟨r, h1, h2⟩ := g.next hR ho
    unfold collect
    rw [h1, Res.ok_bind]
    cases L with
    | nil => rw [h2.1]; rfl
    | cons x L =>
      rw [h2.1, if_pos rfl, g.cur h2.2, Res.ok_bind,
        collect_spec g fuel L r.2 k (some x) h2.2 ho.tail (by simp only [List.length_cons] at hf; omega)]
      rfl

/-! ### Lists of spans -/

theorem dropWhile_ord {L : List Sp} (h : Ord L) (t : Int) : L.dropWhile (docLt t) = L.filter fun x => !docLt t x := by
  induction L with
  | nil => rfl
  | cons x L ih =>
    by_cases hx : docLt t x = true
    · rw [List.dropWhile_cons_of_pos hx, List.filter_cons_of_neg (by simp [hx]), ih (h.sub (List.sublist_cons_self _ _))]
    · rw [List.dropWhile_cons_of_neg hx, List.filter_cons_of_pos (by simpa using hx)]
      congr 1
      refine (List.filter_eq_self.2 fun y hy => ?_).symm
      have := (List.pairwise_cons.1 h.1).1 y hy
      simp only [docLt, decide_eq_true_eq, SpLe, Bool.not_eq_true', decide_eq_false_iff_not] at *
      omega

/-- Dropping commutes with filtering. -/
theorem dropWhile_filter {L : List Sp} (h : Ord L) (p : Sp → Bool) (t : Int) :
    (L.filter p).dropWhile (docLt t) = (L.dropWhile (docLt t)).filter p := by
  rw [dropWhile_ord h, dropWhile_ord (h.sub List.filter_sublist), List.filter_filter, List.filter_filter]
  congr 1; funext x; exact Bool.and_comm _ _

/-! ### SpanTermEnum -/

/-- The spans of a term at these positions of a document. -/
def occSpans (d : Int) (ps : List Int) : List Sp := ps.map fun p => ⟨d, p, p + 1⟩

/-- The spans of a term with these documents. -/
def termSpans (ps : List Posting) : List Sp := ps.flatMap fun p => occSpans p.doc p.occ

/-- The state of the enumerator of the spans of a term. -/
structure TermR (e : TermE) (_k : Caps) (c : Option Sp) (L : List Sp) : Prop where
  cnt : e.freq = e.count + e.tde.left.length
  docs : ∀ p ∈ e.tde.rest, p.freq = p.occ.length ∧ 0 < p.freq
  none_ : c = none → e.doc = -1 ∧ e.tde.left = []
  some_ : ∀ x, c = some x → x = termCur e
  list : L = occSpans e.doc e.tde.left ++ termSpans e.tde.rest

def TermD (e : TermE) (_k : Caps) : Prop := e.tde.rest = []

/-- Reading a position. -/
theorem termPos_spec {e : TermE} {k : Caps} {p : Int} {l : List Int} (h : e.tde.left = p :: l)
    (hc : e.freq = e.count + e.tde.left.length) (hd : ∀ p ∈ e.tde.rest, p.freq = p.occ.length ∧ 0 < p.freq) :
    (termPos e).1 = true ∧ TermR (termPos e).2 k (some ⟨e.doc, p, p + 1⟩) (occSpans e.doc l ++ termSpans e.tde.rest) := by
  have e1 : tdeNextPosition e.tde = (p, { e.tde with left := l }) := by simp [tdeNextPosition, h]
  refine ⟨rfl, ?_, ?_, ?_, ?_, ?_⟩
  · simp only [termPos, e1]; rw [hc, h]; simp only [List.length_cons]; omega
  · simpa only [termPos, e1] using hd
  · intro h; cases h
  · intro x hx; cases hx; simp only [termPos, e1, termCur]
  · simp only [termPos, e1]

/-- Moving to the next of some documents. -/
theorem termMoved_spec {e : TermE} {k : Caps} {ps : List Posting} (hd : ∀ p ∈ ps, p.freq = p.occ.length ∧ 0 < p.freq) :
    Stepped TermR TermD k (termMoved e (tdeNext { e.tde with rest := ps })) (termSpans ps) := by
  cases ps with
  | nil => exact ⟨rfl, rfl⟩
  | cons p ps =>
    have hp := hd p (List.mem_cons_self ..)
    cases ho : p.occ with
    | nil => rw [ho] at hp; simp at hp; omega
    | cons x l =>
      have e1 : termSpans (p :: ps) = (⟨p.doc, x, x + 1⟩ : Sp) :: (occSpans p.doc l ++ termSpans ps) := by
        simp [termSpans, occSpans, ho]
      rw [e1]
      have := termPos_spec (k := k) (e := { e with tde := ⟨p.doc, p.freq, p.occ, ps⟩, doc := p.doc, freq := p.freq, count := 0 })
        (p := x) (l := l) ho (by simp [hp.1]) (fun q hq => hd q (List.mem_cons_of_mem _ hq))
      exact this

theorem dropWhile_occ {d t : Int} (h : d < t) (l : List Int) (M : List Sp) : (occSpans d l ++ M).dropWhile (docLt t) = M.dropWhile (docLt t) := by
  induction l with
  | nil => rfl
  | cons p l ih =>
    simp only [occSpans, List.map_cons, List.cons_append]
    rw [List.dropWhile_cons_of_pos (by simpa [docLt] using h)]
    exact ih

theorem dropWhile_termSpans (t : Int) : ∀ {ps : List Posting}, (∀ p ∈ ps, p.freq = p.occ.length ∧ 0 < p.freq) →
    (termSpans ps).dropWhile (docLt t) = termSpans (ps.dropWhile fun p => decide ((p.doc : Int) < t))
  | [], _ => rfl
  | p :: ps, h => by
    have e1 : termSpans (p :: ps) = occSpans p.doc p.occ ++ termSpans ps := by simp [termSpans]
    by_cases hp : (p.doc : Int) < t
    · rw [List.dropWhile_cons_of_pos (by simpa using hp), e1, dropWhile_occ hp]
      exact dropWhile_termSpans t fun q hq => h q (List.mem_cons_of_mem _ hq)
    · rw [List.dropWhile_cons_of_neg (by simpa using hp)]
      have hf := h p (List.mem_cons_self ..)
      cases ho : p.occ with
      | nil => rw [ho] at hf; simp at hf; omega
      | cons x l =>
        rw [e1, ho]
        simp only [occSpans, List.map_cons, List.cons_append]
        rw [List.dropWhile_cons_of_neg (by simpa [docLt] using hp)]

theorem good_term : Good termOps TermR TermD where
  left := by
    intro s k c L h
    rw [h.list]
    simp only [termOps, tdeLeft, List.length_append, occSpans, List.length_map, termSpans, List.length_flatMap]
    exact Nat.le_refl _
  cur := by
    intro s k x L h
    rw [h.some_ x rfl]; rfl
  early := by
    intro s k L h _
    exact ⟨_, rfl, (h.none_ rfl).1⟩
  next := by
    intro s k c L h _
    refine ⟨_, rfl, ?_⟩
    unfold termNext
    cases hl : s.tde.left with
    | nil =>
      rw [if_pos (by rw [h.cnt, hl]; simp), h.list, hl]
      exact termMoved_spec h.docs
    | cons p l =>
      rw [if_neg (by rw [h.cnt, hl]; simp only [List.length_cons]; omega), h.list, hl]
      exact termPos_spec hl h.cnt h.docs
  skip := by
    intro s k c L t h _ _ hb
    refine ⟨_, rfl, ?_⟩
    have e1 : L.dropWhile (docLt t) = termSpans (s.tde.rest.dropWhile fun p => decide ((p.doc : Int) < t)) := by
      rw [h.list, ← dropWhile_termSpans t h.docs]
      cases c with
      | none => rw [(h.none_ rfl).2]; rfl
      | some x =>
        refine dropWhile_occ ?_ _ _
        have := h.some_ x rfl
        subst this; exact hb
    rw [e1]
    exact termMoved_spec fun p hp => h.docs p (List.dropWhile_subset _ hp)
  late := by
    intro s k h _
    refine ⟨⟨_, rfl⟩, fun t => ⟨(termSkipTo s t).2, ?_, ?_⟩⟩
    · have e1 : s.tde.rest = [] := h
      simp [termOps, termSkipTo, tdeSkipTo, e1, tdeNext, termMoved]
    · have e1 : s.tde.rest = [] := h
      simp [termSkipTo, tdeSkipTo, e1, tdeNext, termMoved, TermD]

/-- A new enumerator. -/
theorem termR_new {ps : List Posting} (h : DocsOK ps) (k : Caps) : TermR (TermE.new ps) k none (termSpans ps) where
  cnt := rfl
  docs := h.freq
  none_ _ := ⟨rfl, rfl⟩
  some_ _ h := nomatch h
  list := rfl

end Ferret.Span
