import Verif.Model.ConstScore
import Verif.Props.C04

/-!
C45: running the same constant-score query twice on the same reader returns the same documents.
-/

namespace Ferret.Props
open Ferret Ferret.BitVector Ferret.Spec Ferret.ConstScore

/-- What a search should return: the documents the filter's query matches, in order. -/
def filteredDocs (r : Reader) : List Int := ((List.range r.maxDoc).filter (fun d => decide (d ∈ r.docs))).map Int.ofNat

/-- Document numbers are below `max_doc`, and the bit vector has room for one more bit: see
`C45_last_word`. -/
structure RoomyReader (r : Reader) : Prop where
  bounds : ∀ d ∈ r.docs, d < r.maxDoc
  room : r.maxDoc < 128 ∨ r.maxDoc % 32 ≠ 0

/-- The bit vector of a reader, whatever its cursor. -/
structure BvOf (r : Reader) (bv : BV) : Prop where
  wf : WFw bv
  ext : bv.ext = false
  size : bv.size ≤ r.maxDoc
  words : 32 * bv.bits.length > r.maxDoc
  bits : ∀ i, lg bv i = decide (i ∈ r.docs)

theorem BvOf.cursor {r : Reader} {bv : BV} (h : BvOf r bv) (c : Int) : BvOf r { bv with currBit := c } :=
  ⟨⟨h.wf.size_le, h.wf.tail⟩, h.ext, h.size, h.words, h.bits⟩

theorem setAll_spec : ∀ (ds : List Nat) (bv : BV), WF bv → bv.ext = false →
    ∃ bv', setAll bv ds = .ok bv' ∧ WF bv' ∧ bv'.ext = false ∧ bv'.currBit = bv.currBit ∧ bv.bits.length ≤ bv'.bits.length ∧
      (∀ n, bv.size ≤ n → (∀ d ∈ ds, d < n) → bv'.size ≤ n) ∧
      ∀ i, bitAt bv'.bits false i = (decide (i ∈ ds) || bitAt bv.bits false i) := by
  intro ds
  induction ds with
  | nil => intro bv h he; exact ⟨bv, rfl, h, he, rfl, Nat.le_refl _, fun n h _ => h, by simp⟩
  | cons d ds ih =>
    intro bv h he
    obtain ⟨b1, e1, w1, s1, x1, c1, l1, g1, _⟩ := setValue_ok bv d true h
    obtain ⟨b2, e2, w2, x2, c2, l2, s2, g2⟩ := ih b1 w1 (by rw [x1, he])
    refine ⟨b2, ?_, w2, x2, by rw [c2, c1], by omega, ?_, ?_⟩
    · simp only [setAll, BitVector.set, e1, Res.ok_bind, e2]
    · intro n hn hd
      refine s2 n ?_ (fun x hx => hd x (by simp [hx]))
      have := hd d (by simp)
      omega
    · intro i
      rw [x1, he] at g1
      rw [g2, g1]
      by_cases hi : i = d
      · subst hi; simp
      · simp [hi]

theorem qfiltGetBv_spec {r : Reader} (h : RoomyReader r) : ∃ bv, qfiltGetBv r = .ok bv ∧ BvOf r bv ∧ bv.currBit = -1 := by
  obtain ⟨bv, e, w, x, c, l, s, g⟩ := setAll_spec r.docs (newCapa r.maxDoc) (wf_newCapa _) rfl
  refine ⟨bv, e, ⟨w.weak, x, s _ (by simp [newCapa]) h.bounds, ?_, ?_⟩, c⟩
  · have hl : (newCapa r.maxDoc).bits.length = max (toWord r.maxDoc) 4 := by simp [newCapa]
    rw [hl] at l
    unfold toWord at l
    have := h.room
    omega
  · intro i
    rw [w.lg_eq, x, g]
    have : bitAt (newCapa r.maxDoc).bits false i = false := by
      simp only [newCapa]
      exact bitAt_replicate_zero _ _
    rw [this, Bool.or_false]

theorem lookup_update (c : Cache) (k j : Nat) (bv : BV) : lookup (update c k bv) j = if j = k then some bv else lookup c j := by
  unfold lookup update
  by_cases h : j = k
  · subst h; simp
  · rw [if_neg h, List.find?_cons_of_neg (by simp; omega)]
    congr 1
    induction c with
    | nil => rfl
    | cons p c ih =>
      by_cases hp : p.1 = k
      · rw [List.filter_cons_of_neg (by simp [hp]), ih, List.find?_cons_of_neg (by simp; omega)]
      · rw [List.filter_cons_of_pos (by simp [hp])]
        by_cases hj : p.1 = j
        · rw [List.find?_cons_of_pos (by simp [hj]), List.find?_cons_of_pos (by simp [hj])]
        · rw [List.find?_cons_of_neg (by simp [hj]), List.find?_cons_of_neg (by simp [hj]), ih]

/-- Going on from a place: the documents from there, then the cursor stays at or beyond the last one. -/
theorem collect_spec {r : Reader} (hb : ∀ d ∈ r.docs, d < r.maxDoc) (k : Nat) : ∀ (m i fuel : Nat) (c : Cache) (bv : BV), r.maxDoc - i = m → i ≤ r.maxDoc →
    m < fuel → lookup c k = some bv → BvOf r bv → bv.currBit + 1 = (i : Int) →
    ∃ c' bv', collect fuel c k = .ok (((List.range' i (r.maxDoc - i)).filter (fun d => decide (d ∈ r.docs))).map Int.ofNat, c') ∧
      lookup c' k = some bv' ∧ BvOf r bv' ∧ (∀ j, j ≠ k → lookup c' j = lookup c j) ∧
      ∃ e : Nat, bv'.currBit + 1 = (e : Int) ∧ e ≤ r.maxDoc ∧ ∀ d ∈ r.docs, d < e := by
  intro m
  induction m using Nat.strongRecOn with
  | ind m ih =>
    intro i fuel c bv hm hi hf hl hbv hc
    obtain ⟨fuel, rfl⟩ : ∃ f, fuel = f + 1 := ⟨fuel - 1, by omega⟩
    have hbits : lg bv = fun d => decide (d ∈ r.docs) := funext hbv.bits
    simp only [collect, csscNext, hl, Res.ofOption, Res.ok_bind, scanNext, hc]
    have hw := hbv.words
    rcases scanNextFrom_spec bv i hbv.wf (by omega) hbv.ext with ⟨j, h1, h2, h3, h4, h5⟩ | ⟨h1, h2⟩
    · have hj : j < r.maxDoc := by have := hbv.size; omega
      rw [h1]
      simp only [Res.ok_bind]
      rw [if_pos (by omega)]
      obtain ⟨c', bv', e1, e2, e3, e4, e5⟩ := ih (r.maxDoc - (j + 1)) (by omega) (j + 1) fuel (update c k { bv with currBit := (j : Int) })
        { bv with currBit := (j : Int) } rfl (by omega) (by omega) (by rw [lookup_update, if_pos rfl]) (hbv.cursor _) (by simp)
      refine ⟨c', bv', ?_, e2, e3, ?_, e5⟩
      · rw [e1, Res.ok_bind]
        have hsplit : List.range' i (r.maxDoc - i) = List.range' i (j - i) ++ j :: List.range' (j + 1) (r.maxDoc - (j + 1)) := by
          rw [show r.maxDoc - i = (j - i) + ((r.maxDoc - (j + 1)) + 1) by omega, ← List.range'_append_1, List.range'_succ]
          rw [show i + (j - i) = j by omega]
        have hnil : (List.range' i (j - i)).filter (fun d => decide (d ∈ r.docs)) = [] := by
          rw [List.filter_eq_nil_iff]
          intro k hk
          rw [List.mem_range'_1] at hk
          have := h5 k (by omega) (by omega)
          rw [hbits] at this
          simpa using this
        rw [hsplit, List.filter_append, hnil, List.nil_append, List.filter_cons_of_pos (by rw [hbits] at h4; exact h4), List.map_cons]
        rfl
      · intro j' hj'
        rw [e4 j' hj', lookup_update, if_neg hj']
    · rw [h1]
      simp only [Res.ok_bind]
      rw [if_neg (by omega)]
      have hnone : ∀ d ∈ r.docs, d < i := by
        intro d hd
        by_cases h : d < i
        · exact h
        · have := h2 d (by omega)
          rw [hbits] at this
          simp [hd] at this
      refine ⟨update c k bv, bv, ?_, by rw [lookup_update, if_pos rfl], hbv, ?_, i, hc, hi, hnone⟩
      · have : (List.range' i (r.maxDoc - i)).filter (fun d => decide (d ∈ r.docs)) = [] := by
          rw [List.filter_eq_nil_iff]
          intro k hk
          rw [List.mem_range'_1] at hk
          intro hd
          have := hnone k (by simpa using hd)
          omega
        rw [this]; rfl
      · intro j' hj'
        rw [lookup_update, if_neg hj']

/-- The cache between searches: readers not searched are not in it, those searched have been gone through. -/
structure Searched (env : Nat → Reader) (seen : List Nat) (c : Cache) : Prop where
  fresh : ∀ k, k ∉ seen → lookup c k = none
  used : ∀ k, k ∈ seen → ∃ bv, lookup c k = some bv ∧ BvOf (env k) bv ∧
    ∃ e : Nat, bv.currBit + 1 = (e : Int) ∧ e ≤ (env k).maxDoc ∧ ∀ d ∈ (env k).docs, d < e

theorem search_spec {env : Nat → Reader} (hr : ∀ k, RoomyReader (env k)) {seen : List Nat} {c : Cache} (h : Searched env seen c) (k : Nat) :
    ∃ c', search env c k = .ok (if k ∈ seen then [] else filteredDocs (env k), c') ∧ Searched env (k :: seen) c' := by
  have after : ∀ {c0 c' : Cache} {bv' : BV}, (∀ j, j ≠ k → lookup c0 j = lookup c j) → lookup c' k = some bv' → BvOf (env k) bv' →
      (∀ j, j ≠ k → lookup c' j = lookup c0 j) →
      (∃ e : Nat, bv'.currBit + 1 = (e : Int) ∧ e ≤ (env k).maxDoc ∧ ∀ d ∈ (env k).docs, d < e) → Searched env (k :: seen) c' := by
    intro c0 c' bv' h0 h1 h2 h3 h4
    constructor
    · intro j hj
      simp only [List.mem_cons, not_or] at hj
      rw [h3 j hj.1, h0 j hj.1]
      exact h.fresh j hj.2
    · intro j hj
      by_cases hjk : j = k
      · subst hjk; exact ⟨bv', h1, h2, h4⟩
      · rw [h3 j hjk, h0 j hjk]
        exact h.used j (by simpa [hjk] using hj)
  unfold search filtGetBv
  by_cases hk : k ∈ seen
  · obtain ⟨bv, hl, hbv, e, he, hle, hlt⟩ := h.used k hk
    rw [hl, if_pos hk]
    simp only [Res.ok_bind]
    obtain ⟨c', bv', e1, e2, e3, e4, e5⟩ := collect_spec (hr k).bounds k ((env k).maxDoc - e) e ((env k).maxDoc + 1) c bv rfl hle (by omega) hl hbv he
    refine ⟨c', ?_, after (fun _ _ => rfl) e2 e3 e4 e5⟩
    rw [e1]
    have : (List.range' e ((env k).maxDoc - e)).filter (fun d => decide (d ∈ (env k).docs)) = [] := by
      rw [List.filter_eq_nil_iff]
      intro d hd
      rw [List.mem_range'_1] at hd
      intro hm
      have := hlt d (by simpa using hm)
      omega
    rw [this]; rfl
  · rw [h.fresh k hk, if_neg hk]
    obtain ⟨bv, e, hbv, hcur⟩ := qfiltGetBv_spec (hr k)
    simp only [e, Res.ok_bind]
    obtain ⟨c', bv', e1, e2, e3, e4, e5⟩ := collect_spec (hr k).bounds k (env k).maxDoc 0 ((env k).maxDoc + 1) (update c k bv) bv rfl
      (by omega) (by omega) (by rw [lookup_update, if_pos rfl]) hbv (by rw [hcur]; rfl)
    refine ⟨c', ?_, after (c0 := update c k bv) (fun j hj => by rw [lookup_update, if_neg hj]) e2 e3 e4 e5⟩
    rw [e1]
    unfold filteredDocs
    simp [List.range_eq_range']

/-- What the searches return: all the documents at the first search of each reader, nothing at later ones. -/
def firstOnly (env : Nat → Reader) : List Nat → List Nat → List (List Int)
  | _, [] => []
  | seen, k :: ks => (if k ∈ seen then [] else filteredDocs (env k)) :: firstOnly env (k :: seen) ks

theorem searches_spec {env : Nat → Reader} (hr : ∀ k, RoomyReader (env k)) : ∀ (ks seen : List Nat) (c : Cache), Searched env seen c →
    ∃ c', searches env c ks = .ok (firstOnly env seen ks, c') := by
  intro ks
  induction ks with
  | nil => intro seen c _; exact ⟨c, rfl⟩
  | cons k ks ih =>
    intro seen c h
    obtain ⟨c1, e1, h1⟩ := search_spec hr h k
    obtain ⟨c2, e2⟩ := ih (k :: seen) c1 h1
    exact ⟨c2, by simp only [searches, e1, Res.ok_bind, e2, firstOnly]⟩

theorem firstOnly_get (env : Nat → Reader) : ∀ (ks seen : List Nat) (i k : Nat), ks[i]? = some k →
    (firstOnly env seen ks)[i]? = some (if k ∈ seen ∨ k ∈ ks.take i then [] else filteredDocs (env k)) := by
  intro ks
  induction ks with
  | nil => intro seen i k h; simp at h
  | cons k0 ks ih =>
    intro seen i k h
    cases i with
    | zero => simp at h; subst h; simp [firstOnly]
    | succ i =>
      simp only [List.getElem?_cons_succ] at h
      simp only [firstOnly, List.getElem?_cons_succ, ih (k0 :: seen) i k h, List.take_succ_cons]
      congr 1
      by_cases h1 : k ∈ seen <;> by_cases h2 : k = k0 <;> by_cases h3 : k ∈ ks.take i <;> simp [h1, h2, h3]

/-- **C45, the first time.** In any sequence of searches with the same constant-score query over any readers,
the first search of each reader returns all the documents the filter matches there, in order.

Missing: the later searches of the same reader (`C45_again_nothing`), and readers with a multiple of 32
documents (`C45_last_word`). -/
theorem C45_first_partial (env : Nat → Reader) (hr : ∀ k, RoomyReader (env k)) (ks : List Nat) :
    ∃ out c, searches env [] ks = .ok (out, c) ∧
      ∀ (i k : Nat), ks[i]? = some k → k ∉ ks.take i → out[i]? = some (filteredDocs (env k)) := by
  obtain ⟨c, e⟩ := searches_spec hr ks [] [] ⟨fun _ _ => rfl, fun _ h => by simp at h⟩
  refine ⟨_, c, e, ?_⟩
  intro i k hi hk
  rw [firstOnly_get env ks [] i k hi, if_neg (by simp [hk])]

/-- **C45 fails.** In any sequence of searches, every search of a reader that was searched before returns
nothing, whatever the filter matches. -/
theorem C45_again_nothing (env : Nat → Reader) (hr : ∀ k, RoomyReader (env k)) (ks : List Nat) :
    ∃ out c, searches env [] ks = .ok (out, c) ∧
      ∀ (i k : Nat), ks[i]? = some k → k ∈ ks.take i → out[i]? = some [] := by
  obtain ⟨c, e⟩ := searches_spec hr ks [] [] ⟨fun _ _ => rfl, fun _ h => by simp at h⟩
  refine ⟨_, c, e, ?_⟩
  intro i k hi hk
  rw [firstOnly_get env ks [] i k hi, if_pos (.inr hk)]

/-- Skipping is repeatable: whatever was searched before, skipping to a document below `max_doc` stops at the
first matching document from there, or answers -1 if there is none. -/
theorem C45_skip_to (env : Nat → Reader) (hr : ∀ k, RoomyReader (env k)) (ks : List Nat) (k d : Nat) (hd : d < (env k).maxDoc) :
    ∃ out c c1 a c2, searches env [] ks = .ok (out, c) ∧ filtGetBv env c k = .ok c1 ∧ csscSkipTo c1 k d = .ok (a, c2) ∧
      a = ((filteredDocs (env k)).find? (fun x => decide ((d : Int) ≤ x))).getD (-1) := by
  have hex : ∃ c, searches env [] ks = .ok (firstOnly env [] ks, c) ∧ ∃ seen, Searched env seen c := by
    have gen : ∀ (ks seen : List Nat) (c : Cache), Searched env seen c →
        ∃ c', searches env c ks = .ok (firstOnly env seen ks, c') ∧ ∃ seen', Searched env seen' c' := by
      intro ks
      induction ks with
      | nil => intro seen c h; exact ⟨c, rfl, seen, h⟩
      | cons k ks ih =>
        intro seen c h
        obtain ⟨c1, e1, h1⟩ := search_spec hr h k
        obtain ⟨c2, e2, h2⟩ := ih (k :: seen) c1 h1
        exact ⟨c2, by simp only [searches, e1, Res.ok_bind, e2, firstOnly], h2⟩
    exact gen ks [] [] ⟨fun _ _ => rfl, fun _ h => by simp at h⟩
  obtain ⟨c, e, seen, hs⟩ := hex
  have hget : ∃ c1 bv, filtGetBv env c k = .ok c1 ∧ lookup c1 k = some bv ∧ BvOf (env k) bv := by
    unfold filtGetBv
    cases hl : lookup c k with
    | some bv =>
      by_cases hk : k ∈ seen
      · obtain ⟨bv', h1, h2, _⟩ := hs.used k hk
        rw [hl] at h1; cases h1
        exact ⟨c, bv, rfl, hl, h2⟩
      · rw [hs.fresh k hk] at hl; cases hl
    | none =>
      obtain ⟨bv, e, hbv, _⟩ := qfiltGetBv_spec (hr k)
      exact ⟨update c k bv, bv, by simp [e], by rw [lookup_update, if_pos rfl], hbv⟩
  obtain ⟨c1, bv, g1, g2, g3⟩ := hget
  have hbits : lg bv = fun d => decide (d ∈ (env k).docs) := funext g3.bits
  have hw := g3.words
  rcases scanNextFrom_spec bv d g3.wf (by omega) g3.ext with ⟨j, h1, h2, h3, h4, h5⟩ | ⟨h1, h2⟩
  · refine ⟨_, c, c1, j, _, e, g1, by simp only [csscSkipTo, g2, Res.ofOption, Res.ok_bind, h1]; rfl, ?_⟩
    have hj : j < (env k).maxDoc := by have := g3.size; omega
    have hjd : j ∈ (env k).docs := by rw [hbits] at h4; simpa using h4
    have : (filteredDocs (env k)).find? (fun x => decide ((d : Int) ≤ x)) = some (j : Int) := by
      unfold filteredDocs
      have hsplit : List.range (env k).maxDoc = List.range' 0 d ++ (List.range' d (j - d) ++ j :: List.range' (j + 1) ((env k).maxDoc - (j + 1))) := by
        rw [List.range_eq_range']
        conv => lhs; rw [show (env k).maxDoc = d + ((j - d) + (((env k).maxDoc - (j + 1)) + 1)) by omega]
        rw [← List.range'_append_1, ← List.range'_append_1, List.range'_succ]
        simp only [Nat.zero_add]
        rw [show d + (j - d) = j by omega]
      have hnil : (List.range' d (j - d)).filter (fun d => decide (d ∈ (env k).docs)) = [] := by
        rw [List.filter_eq_nil_iff]
        intro x hx
        rw [List.mem_range'_1] at hx
        have := h5 x (by omega) (by omega)
        rw [hbits] at this
        simpa using this
      rw [hsplit, List.filter_append, List.filter_append, hnil, List.nil_append, List.filter_cons_of_pos (by simpa using hjd),
        List.map_append, List.map_cons, List.find?_append]
      have hz : (((List.range' 0 d).filter (fun d => decide (d ∈ (env k).docs))).map Int.ofNat).find? (fun x => decide ((d : Int) ≤ x)) = none := by
        rw [List.find?_eq_none]
        intro x hx
        obtain ⟨y, hy, rfl⟩ := List.mem_map.1 hx
        have := (List.mem_range'_1.1 (List.mem_filter.1 hy).1)
        simp only [Int.ofNat_eq_natCast, decide_eq_true_eq]
        omega
      rw [hz, List.find?_cons_of_pos (by simp only [Int.ofNat_eq_natCast, decide_eq_true_eq]; omega)]
      rfl
    rw [this]; rfl
  · refine ⟨_, c, c1, -1, _, e, g1, by simp only [csscSkipTo, g2, Res.ofOption, Res.ok_bind, h1]; rfl, ?_⟩
    have : (filteredDocs (env k)).find? (fun x => decide ((d : Int) ≤ x)) = none := by
      rw [List.find?_eq_none]
      intro x hx
      obtain ⟨y, hy, rfl⟩ := List.mem_map.1 hx
      have hyd := (List.mem_filter.1 hy).2
      simp only [Int.ofNat_eq_natCast, decide_eq_true_eq]
      intro hle
      have := h2 y (by omega)
      rw [hbits] at this
      simp only [decide_eq_false_iff_not] at this
      exact this (by simpa using hyd)
    rw [this]; rfl

/-! ### A case that meets the hypotheses -/

def twoReaders (k : Nat) : Reader := if k = 0 then ⟨40, [3, 39, 5]⟩ else ⟨200, [0, 199]⟩

theorem twoReaders_roomy : ∀ k, RoomyReader (twoReaders k) := by
  intro k
  unfold twoReaders
  split
  · exact ⟨by decide, by decide⟩
  · exact ⟨by decide, by decide⟩

/-- Two readers, each searched twice. -/
example : (searches twoReaders [] [0, 1, 0, 1] >>= fun r => .ok r.1) = .ok [[3, 5, 39], [0, 199], [], []] := by decide +kernel

example : ∃ out c, searches twoReaders [] [0, 1, 0, 1] = .ok (out, c) ∧
      ∀ (i k : Nat), [0, 1, 0, 1][i]? = some k → k ∉ [0, 1, 0, 1].take i → out[i]? = some (filteredDocs (twoReaders k)) :=
  C45_first_partial twoReaders twoReaders_roomy _

example : filteredDocs (twoReaders 0) = [3, 5, 39] := by decide +kernel

/-- **C45 fails**, the same query twice on the same reader. -/
theorem C45_twice : (searches twoReaders [] [0, 0] >>= fun r => .ok r.1) = .ok [filteredDocs (twoReaders 0), []] ∧
    filteredDocs (twoReaders 0) ≠ [] := by decide +kernel

/-- A reader with 128 documents the last of which matches: the first search reads beyond the bit vector. -/
theorem C45_last_word : search (fun _ => ⟨128, [127]⟩) [] 0 = .ub := by decide +kernel

#print axioms C45_first_partial
#print axioms C45_again_nothing
#print axioms C45_skip_to
#print axioms C45_twice
#print axioms C45_last_word
end Ferret.Props
