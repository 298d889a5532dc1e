import Verif.Model.Invert

namespace Ferret.Inv
open Ferret Ferret.Spec Ferret.Fis Ferret.Fields Ferret.Dict Ferret.Expand Ferret.Post

/-- Nothing for an empty list. -/
def optList {α : Type} (l : List α) : Option (List α) := if l.isEmpty then none else some l

theorem optList_nil {α : Type} : optList ([] : List α) = none := rfl
theorem optList_ne {α : Type} {l : List α} (h : l ≠ []) : optList l = some l := by
  cases l with
  | nil => exact absurd rfl h
  | cons => rfl

/-- The posting of a document with these positions. -/
def newPosting (k : Nat) (occ : List Int) : List Posting := if occ.isEmpty then [] else [⟨k, occ.length, occ⟩]

/-! ### Posting lists -/

theorem getPl_setPl (pls : Plists) (t : Term) (ps : List Posting) (u : Term) :
    getPl (setPl pls t ps) u = if u = t then (getPl pls t).map (fun _ => ps) else getPl pls u := by
  unfold getPl setPl
  induction pls with
  | nil => simp
  | cons x pls ih =>
    simp only [List.map_cons, List.find?_cons]
    by_cases hx : x.1 = t
    · by_cases hu : u = t
      · subst hu; simp [hx]
      · have hne : ¬ t = u := fun h => hu h.symm
        rw [if_neg hu] at ih ⊢
        rw [if_pos hx, hx]
        simp only [hne, decide_false]
        exact ih
    · rw [if_neg hx]
      by_cases hxu : x.1 = u
      · have hu : ¬ u = t := fun h => hx (hxu.trans h)
        simp [hxu, hu]
      · simp only [hxu, decide_false, hx]
        exact ih

theorem setPl_keys (pls : Plists) (t : Term) (ps : List Posting) : (setPl pls t ps).map (·.1) = pls.map (·.1) := by
  unfold setPl
  rw [List.map_map]
  apply List.map_congr_left
  intro x _
  simp only [Function.comp]
  split
  · rename_i h; exact h.symm
  · rfl

theorem getPl_none {pls : Plists} {t : Term} : getPl pls t = none ↔ t ∉ pls.map (·.1) := by
  unfold getPl
  rw [Option.map_eq_none_iff, List.find?_eq_none]
  simp only [decide_eq_true_eq, List.mem_map, not_exists, not_and]

theorem getPl_append (pls : Plists) (t : Term) (ps : List Posting) (u : Term) (h : getPl pls t = none) :
    getPl (pls ++ [(t, ps)]) u = if u = t then some ps else getPl pls u := by
  by_cases hu : u = t
  · subst hu
    rw [if_pos rfl]
    unfold getPl at h ⊢
    rw [List.find?_append]
    rw [Option.map_eq_none_iff] at h
    rw [h]
    simp
  · rw [if_neg hu]
    unfold getPl
    rw [List.find?_append]
    have h' : ¬ t = u := fun e => hu e.symm
    simp [List.find?_cons, h']

theorem positionsOf_snoc (ps : List (Term × Int)) (t : Term) (p : Int) (u : Term) :
    positionsOf (ps ++ [(t, p)]) u = positionsOf ps u ++ (if u = t then [p] else []) := by
  unfold positionsOf
  rw [List.filter_append, List.map_append]
  by_cases h : t = u
  · subst h; simp
  · have h' : ¬ u = t := fun e => h e.symm
    simp [h, h']

/-- The posting lists while a document is inverted: those before it, and what was placed. -/
structure PlInv (old : Term → List Posting) (k : Nat) (done : List (Term × Int)) (curr : List Term) (pls : Plists) : Prop where
  keys : (pls.map (·.1)).Nodup
  currNodup : curr.Nodup
  currs : ∀ t, t ∈ curr ↔ positionsOf done t ≠ []
  lists : ∀ t, getPl pls t = optList (old t ++ newPosting k (positionsOf done t))

theorem newPosting_last (ps : List Posting) (k : Nat) (occ : List Int) (h : occ ≠ []) :
    (ps ++ newPosting k occ) ≠ [] ∧ (ps ++ newPosting k occ).getLast? = some ⟨k, occ.length, occ⟩ ∧ (ps ++ newPosting k occ).dropLast = ps := by
  cases occ with
  | nil => exact absurd rfl h
  | cons x xs => simp [newPosting]

theorem newPosting_ne (k : Nat) {occ : List Int} (h : occ ≠ []) : newPosting k occ = [⟨k, occ.length, occ⟩] := by
  cases occ with
  | nil => exact absurd rfl h
  | cons x xs => simp [newPosting]

theorem addPosting_spec {old : Term → List Posting} {k : Nat} {done : List (Term × Int)} {curr : List Term} {pls : Plists}
    (h : PlInv old k done curr pls) (t : Term) (p : Int) :
    ∃ r, addPosting curr pls k t p = .ok r ∧ PlInv old k (done ++ [(t, p)]) r.1 r.2 := by
  have hother : ∀ u, u ≠ t → positionsOf (done ++ [(t, p)]) u = positionsOf done u := by
    intro u hu; rw [positionsOf_snoc, if_neg hu, List.append_nil]
  have hself : positionsOf (done ++ [(t, p)]) t = positionsOf done t ++ [p] := by rw [positionsOf_snoc, if_pos rfl]
  unfold addPosting
  by_cases hc : t ∈ curr
  · rw [if_pos hc]
    have hne := (h.currs t).1 hc
    obtain ⟨l1, l2, l3⟩ := newPosting_last (old t) k _ hne
    have hl := h.lists t
    rw [optList_ne l1] at hl
    rw [hl]
    simp only [Res.ofOption, Res.ok_bind, plAddOcc, l2, l3]
    refine ⟨_, rfl, ?_, h.currNodup, ?_, ?_⟩
    · rw [setPl_keys]; exact h.keys
    · intro u
      by_cases hu : u = t
      · subst hu; rw [hself]; simp [hc]
      · rw [hother u hu]; exact h.currs u
    · intro u
      rw [getPl_setPl]
      by_cases hu : u = t
      · subst hu
        have hnp : newPosting k (positionsOf done u ++ [p]) = [⟨k, (positionsOf done u).length + 1, positionsOf done u ++ [p]⟩] := by
          rw [newPosting_ne k (by simp)]; simp
        rw [if_pos rfl, hl, hself, hnp, optList_ne (by simp)]
        rfl
      · rw [if_neg hu, hother u hu]; exact h.lists u
  · rw [if_neg hc]
    have hnil : positionsOf done t = [] := by
      exact Decidable.not_not.1 (fun hn => hc ((h.currs t).2 hn))
    have hl := h.lists t
    rw [hnil] at hl
    simp only [newPosting, List.isEmpty_nil, if_true, List.append_nil] at hl
    have hcn : (curr ++ [t]).Nodup := by
      rw [List.nodup_append]
      refine ⟨h.currNodup, by simp, ?_⟩
      intro a ha b hb
      simp only [List.mem_singleton] at hb
      subst hb
      exact fun e => hc (e ▸ ha)
    have hcs : ∀ u, u ∈ curr ++ [t] ↔ positionsOf (done ++ [(t, p)]) u ≠ [] := by
      intro u
      by_cases hu : u = t
      · subst hu; rw [hself]; simp
      · rw [hother u hu, List.mem_append, List.mem_singleton]
        simp only [hu, or_false]
        exact h.currs u
    cases hold : old t with
    | nil =>
      rw [hold, optList_nil] at hl
      rw [hl]
      refine ⟨_, rfl, ?_, hcn, hcs, ?_⟩
      · rw [List.map_append, List.nodup_append]
        refine ⟨h.keys, by simp, ?_⟩
        intro a ha b hb
        simp only [List.map_cons, List.map_nil, List.mem_singleton] at hb
        subst hb
        exact fun e => getPl_none.1 hl (e ▸ ha)
      · intro u
        rw [getPl_append _ _ _ _ hl]
        by_cases hu : u = t
        · subst hu
          rw [if_pos rfl, hself, hnil, hold]
          rfl
        · rw [if_neg hu, hother u hu]; exact h.lists u
    | cons q qs =>
      rw [hold] at hl
      rw [optList_ne (by simp)] at hl
      rw [hl]
      refine ⟨_, rfl, ?_, hcn, hcs, ?_⟩
      · rw [setPl_keys]; exact h.keys
      · intro u
        rw [getPl_setPl]
        by_cases hu : u = t
        · subst hu
          rw [if_pos rfl, hself, hnil, hold, hl]
          rfl
        · rw [if_neg hu, hother u hu]; exact h.lists u

/-! ### How many occurrences -/

/-- The occurrences in a list of postings. -/
def occs (ps : List Posting) : Nat := (ps.map fun p => p.occ.length).sum

/-- The occurrences of all terms. -/
def occCount (pls : Plists) : Nat := (pls.map fun x => occs x.2).sum

theorem setPl_absent {pls : Plists} {t : Term} (ps : List Posting) (h : t ∉ pls.map (·.1)) : setPl pls t ps = pls := by
  unfold setPl
  conv => rhs; rw [← List.map_id pls]
  apply List.map_congr_left
  intro x hx
  rw [if_neg]
  · rfl
  · exact fun e => h (List.mem_map.2 ⟨x, hx, e⟩)

theorem occCount_setPl (t : Term) (qs : List Posting) : ∀ (pls : Plists) (ps : List Posting), (pls.map (·.1)).Nodup →
    getPl pls t = some ps → occCount (setPl pls t qs) + occs ps = occCount pls + occs qs := by
  intro pls
  induction pls with
  | nil => intro ps _ h; cases h
  | cons x pls ih =>
    intro ps hn h
    rw [List.map_cons, List.nodup_cons] at hn
    by_cases hx : x.1 = t
    · have hps : x.2 = ps := by
        unfold getPl at h
        simp only [List.find?_cons, hx, decide_true, Option.map_some, Option.some.injEq] at h
        exact h
      have hset : setPl (x :: pls) t qs = (t, qs) :: pls := by
        have := setPl_absent (pls := pls) (t := t) qs (by rw [← hx]; exact hn.1)
        unfold setPl at this ⊢
        rw [List.map_cons, if_pos hx, this]
      rw [hset]
      unfold occCount
      simp only [List.map_cons, List.sum_cons]
      rw [hps]
      omega
    · have h' : getPl pls t = some ps := by
        unfold getPl at h ⊢
        simpa only [List.find?_cons, hx, decide_false] using h
      have hset : setPl (x :: pls) t qs = x :: setPl pls t qs := by
        unfold setPl
        rw [List.map_cons, if_neg hx]
      have := ih ps hn.2 h'
      rw [hset]
      unfold occCount at this ⊢
      simp only [List.map_cons, List.sum_cons]
      omega

theorem occs_dropLast {ps : List Posting} {p : Posting} (h : ps.getLast? = some p) : occs ps.dropLast + p.occ.length = occs ps := by
  have e : ps = ps.dropLast ++ [p] := by
    rw [List.getLast?_eq_some_iff] at h
    obtain ⟨ys, rfl⟩ := h
    simp
  conv => rhs; rw [e]
  simp [occs]

theorem addPosting_count {curr : List Term} {pls : Plists} {k : Nat} {t : Term} {p : Int} {r : List Term × Plists}
    (hn : (pls.map (·.1)).Nodup) (h : addPosting curr pls k t p = .ok r) : occCount r.2 = occCount pls + 1 := by
  unfold addPosting at h
  by_cases hc : t ∈ curr
  · rw [if_pos hc] at h
    cases hg : getPl pls t with
    | none => rw [hg] at h; cases h
    | some ps =>
      rw [hg] at h
      simp only [Res.ofOption, Res.ok_bind, plAddOcc] at h
      cases hl : ps.getLast? with
      | none => rw [hl] at h; cases h
      | some q =>
        rw [hl] at h
        simp only [Res.ok_bind] at h
        cases h
        have h1 := occCount_setPl t (ps.dropLast ++ [{ q with freq := q.freq + 1, occ := q.occ ++ [p] }]) pls ps hn hg
        have h2 := occs_dropLast hl
        have h3 : occs (ps.dropLast ++ [{ q with freq := q.freq + 1, occ := q.occ ++ [p] }]) = occs ps.dropLast + (q.occ.length + 1) := by
          simp [occs]
        dsimp only
        omega
  · rw [if_neg hc] at h
    cases hg : getPl pls t with
    | none =>
      rw [hg] at h
      cases h
      simp [occCount, occs]
    | some ps =>
      rw [hg] at h
      cases h
      have h1 := occCount_setPl t (ps ++ [⟨k, 1, [p]⟩]) pls ps hn hg
      have h3 : occs (ps ++ [⟨k, 1, [p]⟩]) = occs ps + 1 := by simp [occs]
      dsimp only
      omega

/-! ### Offsets -/

theorem spanAt_snoc (ss : List (Int × (Int × Int))) (q : Int) (o : Int × Int) (p : Int) :
    spanAt (ss ++ [(q, o)]) p = if p = q then o else spanAt ss p := by
  unfold spanAt
  rw [List.filter_append]
  by_cases h : q = p
  · subst h; simp
  · have h' : ¬ p = q := fun e => h e.symm
    simp [h, h']

theorem addOffsets_get (offs : List (Int × Int)) (pos : Nat) (s e : Int) (p : Nat) :
    ((addOffsets offs pos s e)[p]?).getD (0, 0) = if p = pos then (s, e) else (offs[p]?).getD (0, 0) := by
  unfold addOffsets
  rw [List.getElem?_set]
  by_cases h : pos = p
  · subst h
    rw [if_pos rfl, if_pos rfl, if_pos (by simp; omega)]
    rfl
  · rw [if_neg h, if_neg (fun e => h e.symm)]
    by_cases hp : p < offs.length
    · rw [List.getElem?_append_left hp]
    · rw [List.getElem?_append_right (by omega), List.getElem?_eq_none (l := offs) (by omega), List.getElem?_replicate]
      split <;> rfl

theorem addOffsets_length (offs : List (Int × Int)) (pos : Nat) (s e : Int) :
    (addOffsets offs pos s e).length = max offs.length (pos + 1) := by
  unfold addOffsets
  simp
  omega

/-- The offsets while a document is inverted. -/
structure OffInv (ss : List (Int × (Int × Int))) (offs : List (Int × Int)) (size : Nat) : Prop where
  at_ : ∀ p : Nat, (offs[p]?).getD (0, 0) = spanAt ss p
  sized : (size : Int) = (ss.getLast?.map (·.1 + 1)).getD 0
  room : size ≤ offs.length
  below : ∀ s ∈ ss, 0 ≤ s.1 ∧ s.1 < size

theorem OffInv.add {ss : List (Int × (Int × Int))} {offs : List (Int × Int)} {size : Nat} (h : OffInv ss offs size) (pos : Nat) (s e : Int)
    (hp : (size : Int) ≤ pos + 1) : OffInv (ss ++ [((pos : Int), (s, e))]) (addOffsets offs pos s e) (pos + 1) := by
  refine ⟨?_, by simp, by rw [addOffsets_length]; omega, ?_⟩
  · intro p
    rw [addOffsets_get, spanAt_snoc]
    by_cases hpp : p = pos
    · subst hpp; simp
    · rw [if_neg hpp, if_neg (by omega)]; exact h.at_ p
  · intro x hx
    rcases List.mem_append.1 hx with hx | hx
    · have := h.below x hx; omega
    · simp only [List.mem_singleton] at hx; subst hx; simp; omega

/-! ### Placing tokens -/

/-- Where tokens that follow a position end. -/
def endPos (p : Int) (tks : List Token) : Int := p + (tks.map (·.posInc)).sum

theorem placesFrom_append : ∀ (a b : List Token) (p : Int), placesFrom p (a ++ b) = placesFrom p a ++ placesFrom (endPos p a) b := by
  intro a
  induction a with
  | nil => intro b p; simp [placesFrom, endPos]
  | cons tk a ih => intro b p; simp [placesFrom, endPos, ih, Int.add_assoc]

theorem spansFrom_append : ∀ (a b : List Token) (p : Int), spansFrom p (a ++ b) = spansFrom p a ++ spansFrom (endPos p a) b := by
  intro a
  induction a with
  | nil => intro b p; simp [spansFrom, endPos]
  | cons tk a ih => intro b p; simp [spansFrom, endPos, ih, Int.add_assoc]

theorem endPos_append (a b : List Token) (p : Int) : endPos p (a ++ b) = endPos (endPos p a) b := by
  simp [endPos, Int.add_assoc]

theorem spansFrom_last : ∀ (tks : List Token) (p : Int), ((spansFrom p tks).getLast?.map (·.1 + 1)).getD 0 =
    if tks = [] then 0 else endPos p tks + 1 := by
  intro tks
  induction tks with
  | nil => intro p; rfl
  | cons tk tks ih =>
    intro p
    cases tks with
    | nil => simp [spansFrom, endPos]
    | cons tk2 tks =>
      have := ih (p + tk.posInc)
      rw [if_neg (by simp)] at this ⊢
      simp only [spansFrom, List.getLast?_cons_cons] at this ⊢
      rw [this]
      simp [endPos, Int.add_assoc]

/-- Tokens that go forward: the first to 0 or beyond, none back. -/
def Onward (tks : List Token) : Prop := (∀ tk ∈ tks, 0 ≤ tk.posInc) ∧ ∀ tk, tks.head? = some tk → 1 ≤ tk.posInc

theorem sum_nonneg : ∀ l : List Token, (∀ tk ∈ l, 0 ≤ tk.posInc) → 0 ≤ (l.map (·.posInc)).sum := by
  intro l
  induction l with
  | nil => intro _; simp
  | cons tk l ih =>
    intro h
    have h1 := h tk (by simp)
    have h2 := ih (fun x hx => h x (by simp [hx]))
    simp only [List.map_cons, List.sum_cons]
    omega

theorem Onward.pos {tks : List Token} (h : Onward tks) (hne : tks ≠ []) : 0 ≤ endPos (-1) tks := by
  cases tks with
  | nil => exact absurd rfl hne
  | cons tk tks =>
    have h1 := h.2 tk rfl
    have h2 := sum_nonneg tks (fun x hx => h.1 x (by simp [hx]))
    simp only [endPos, List.map_cons, List.sum_cons]
    omega

theorem Onward.prefix {a b : List Token} (h : Onward (a ++ b)) : Onward a := by
  refine ⟨fun tk htk => h.1 tk (by simp [htk]), fun tk htk => h.2 tk ?_⟩
  cases a with
  | nil => simp at htk
  | cons => simpa using htk

theorem places_snoc (toks : List Token) (tk : Token) : places (toks ++ [tk]) = places toks ++ [(tk.text, endPos (-1) toks + tk.posInc)] := by
  unfold places
  rw [placesFrom_append]
  rfl

/-- The variables after tokens were placed. `base` is what the offsets were before. -/
structure RInv (c : Nat) (old : Term → List Posting) (k : Nat) (offsets : Bool) (base : List (Int × Int)) (toks : List Token) (r : Run) : Prop where
  pl : PlInv old k (places toks) r.curr r.pls
  num : r.num = toks.length
  count : occCount r.pls = c + toks.length
  offs : offsets = true → OffInv (spansFrom (-1) toks) r.offs r.offSize
  noOffs : offsets = false → r.offs = base ∧ r.offSize = 0

theorem RInv.pos {c : Nat} {old : Term → List Posting} {k : Nat} {offsets : Bool} {base : List (Int × Int)} {toks : List Token} {r : Run}
    (h : RInv c old k offsets base toks r) (p : Int) : RInv c old k offsets base toks { r with pos := p } := ⟨h.pl, h.num, h.count, h.offs, h.noOffs⟩

theorem place_spec {c : Nat} {old : Term → List Posting} {k : Nat} {offsets : Bool} {base : List (Int × Int)} {toks : List Token} {r : Run}
    (h : RInv c old k offsets base toks r) (tk : Token) (hon : offsets = true → Onward (toks ++ [tk])) :
    ∃ r', place offsets k tk.text (endPos (-1) toks + tk.posInc) tk.start tk.stop r = .ok r' ∧
      RInv c old k offsets base (toks ++ [tk]) r' ∧ r'.pos = r.pos := by
  obtain ⟨x, e, hp⟩ := addPosting_spec h.pl tk.text (endPos (-1) toks + tk.posInc)
  unfold place
  rw [e, Res.ok_bind]
  refine ⟨_, rfl, ?_, by split <;> rfl⟩
  have hnum : r.num + 1 = (toks ++ [tk]).length := by simp [h.num]
  have hcount : occCount x.2 = c + (toks ++ [tk]).length := by
    have := addPosting_count h.pl.keys e
    rw [h.count] at this
    simp
    omega
  rw [← places_snoc] at hp
  cases offsets with
  | false =>
    simp only [Bool.false_eq_true, if_false]
    exact ⟨hp, hnum, hcount, (fun e => nomatch e), fun _ => h.noOffs rfl⟩
  | true =>
    simp only [if_true]
    refine ⟨hp, hnum, hcount, fun _ => ?_, fun e => nomatch e⟩
    have hpos := (hon rfl).pos (by simp)
    rw [endPos_append] at hpos
    have hpe : endPos (endPos (-1) toks) [tk] = endPos (-1) toks + tk.posInc := by simp [endPos]
    rw [hpe] at hpos
    have hsize := (h.offs rfl).sized
    rw [spansFrom_last] at hsize
    have hinc : 0 ≤ tk.posInc := (hon rfl).1 tk (by simp)
    have := (h.offs rfl).add (endPos (-1) toks + tk.posInc).toNat tk.start tk.stop (by
      by_cases ht : toks = []
      · rw [if_pos ht] at hsize; omega
      · rw [if_neg ht] at hsize; omega)
    rw [spansFrom_append]
    have hc : ((endPos (-1) toks + tk.posInc).toNat : Int) = endPos (-1) toks + tk.posInc := by omega
    rw [hc] at this
    exact this

theorem tokenLoop_spec {c : Nat} {old : Term → List Posting} {k : Nat} {offsets : Bool} {base : List (Int × Int)} (max : Int) (start : Int) :
    ∀ (tks toks : List Token) (r : Run), RInv c old k offsets base toks r → r.pos = endPos (-1) toks →
    (offsets = true → Onward (toks ++ tks)) →
    ∃ r', tokenLoop offsets max k start tks r = .ok r' ∧
      RInv c old k offsets base (toks ++ (tks.take ((max - r.num).toNat + 1)).map (shift start)) r' ∧
      r'.pos = endPos (-1) (toks ++ (tks.take ((max - r.num).toNat + 1)).map (shift start)) := by
  intro tks
  induction tks with
  | nil => intro toks r h hp _; exact ⟨r, rfl, by simpa using h, by simpa using hp⟩
  | cons tk tks ih =>
    intro toks r h hp hon
    have hon1 : offsets = true → Onward (toks ++ [shift start tk]) := by
      intro he
      have h1 := hon he
      refine ⟨?_, ?_⟩
      · intro x hx
        rcases List.mem_append.1 hx with hx | hx
        · exact h1.1 x (by simp [hx])
        · simp only [List.mem_singleton] at hx; subst hx; exact h1.1 tk (by simp)
      · intro x hx
        cases toks with
        | nil => simp at hx; subst hx; exact h1.2 tk (by simp)
        | cons y ys => exact h1.2 x (by simpa using hx)
    have hclip : (if offsets = true ∧ r.pos + tk.posInc < 0 then 0 else r.pos + tk.posInc) = endPos (-1) toks + (shift start tk).posInc := by
      rw [hp]
      by_cases hc : offsets = true ∧ endPos (-1) toks + tk.posInc < 0
      · have hpos := (hon1 hc.1).pos (by simp)
        rw [endPos_append] at hpos
        have hpe : endPos (endPos (-1) toks) [shift start tk] = endPos (-1) toks + tk.posInc := by simp [endPos, shift]
        rw [hpe] at hpos
        omega
      · rw [if_neg hc]; rfl
    obtain ⟨r1, e1, i1, p1⟩ := place_spec (h.pos (endPos (-1) toks + (shift start tk).posInc)) (shift start tk) hon1
    simp only [tokenLoop]
    rw [hclip]
    have e1' : place offsets k tk.text (endPos (-1) toks + (shift start tk).posInc) (start + tk.start) (start + tk.stop)
        { r with pos := endPos (-1) toks + (shift start tk).posInc } = .ok r1 := e1
    rw [e1', Res.ok_bind]
    have hp1 : r1.pos = endPos (-1) (toks ++ [shift start tk]) := by
      rw [p1, endPos_append]; simp [endPos]
    by_cases hm : (r.num : Int) ≥ max
    · rw [if_pos hm]
      have hz : (max - r.num).toNat + 1 = 1 := by omega
      rw [hz]
      exact ⟨r1, rfl, by simpa using i1, by simpa using hp1⟩
    · rw [if_neg hm]
      have hn1 : r1.num = r.num + 1 := by rw [i1.num, h.num]; simp
      obtain ⟨r2, e2, i2, p2⟩ := ih (toks ++ [shift start tk]) r1 i1 hp1 (by
        intro he
        have h1 := hon he
        refine ⟨?_, ?_⟩
        · intro x hx
          rcases List.mem_append.1 hx with hx | hx
          · exact (hon1 he).1 x hx
          · exact h1.1 x (by simp [hx])
        · intro x hx
          refine (hon1 he).2 x ?_
          simpa using hx)
      have hk : (max - (r.num : Int)).toNat + 1 = ((max - (r1.num : Int)).toNat + 1) + 1 := by rw [hn1]; omega
      refine ⟨r2, e2, ?_, ?_⟩
      · rw [hk, List.take_succ_cons, List.map_cons]
        simpa using i2
      · rw [hk, List.take_succ_cons, List.map_cons]
        simpa using p2

theorem Onward.ofPos {a b : List Token} (h : a.map (·.posInc) = b.map (·.posInc)) (ha : Onward a) : Onward b := by
  constructor
  · intro tk htk
    have : tk.posInc ∈ a.map (·.posInc) := by rw [h]; exact List.mem_map.2 ⟨tk, htk, rfl⟩
    obtain ⟨x, hx, e⟩ := List.mem_map.1 this
    rw [← e]; exact ha.1 x hx
  · intro tk htk
    cases b with
    | nil => simp at htk
    | cons y ys =>
      cases a with
      | nil => simp at h
      | cons x xs =>
        simp at htk h
        subst htk
        rw [← h.1]
        exact ha.2 x rfl

/-- All the tokens of the values go forward. -/
def OnwardValues (toks : List Token) (vs : List (List Byte × List Token)) : Prop := Onward toks ∧
  (∀ v ∈ vs, ∀ tk ∈ v.2, 0 ≤ tk.posInc) ∧ (∀ v ∈ vs, ∀ tk, v.2.head? = some tk → 1 ≤ tk.posInc)

theorem valueLoop_spec {c : Nat} {old : Term → List Posting} {k : Nat} {offsets : Bool} {base : List (Int × Int)} (analyze : List Byte → List Token) (max : Int) :
    ∀ (ds : List (List Byte)) (start : Int) (toks : List Token) (r : Run), RInv c old k offsets base toks r → r.pos = endPos (-1) toks →
    (offsets = true → OnwardValues toks (ds.map fun d => (d, analyze d))) →
    ∃ r', valueLoop analyze offsets max k start ds r = .ok r' ∧
      RInv c old k offsets base (toks ++ keptTokens max r.num start (ds.map fun d => (d, analyze d))) r' := by
  intro ds
  induction ds with
  | nil => intro start toks r h _ _; exact ⟨r, rfl, by simpa [keptTokens] using h⟩
  | cons d ds ih =>
    intro start toks r h hp hon
    have happ : ∀ (l : List Token), offsets = true → Onward toks → (∀ tk ∈ l, 0 ≤ tk.posInc) → (∀ tk, l.head? = some tk → 1 ≤ tk.posInc) →
        Onward (toks ++ l) := by
      intro l _ h1 h2 h3
      refine ⟨?_, ?_⟩
      · intro x hx
        rcases List.mem_append.1 hx with hx | hx
        · exact h1.1 x hx
        · exact h2 x hx
      · intro x hx
        cases toks with
        | nil => exact h3 x (by simpa using hx)
        | cons y ys => exact h1.2 x (by simpa using hx)
    obtain ⟨r1, e1, i1, p1⟩ := tokenLoop_spec max start (analyze d) toks r h hp (by
      intro he
      obtain ⟨h1, h2, h3⟩ := hon he
      exact happ _ he h1 (h2 (d, analyze d) (by simp)) (h3 (d, analyze d) (by simp)))
    have hn : r1.num = r.num + ((analyze d).take ((max - r.num).toNat + 1)).length := by
      rw [i1.num, h.num, List.length_append, List.length_map]
    obtain ⟨r2, e2, i2⟩ := ih (start + d.length + 1) _ r1 i1 p1 (by
      intro he
      obtain ⟨h1, h2, h3⟩ := hon he
      refine ⟨?_, fun v hv => h2 v (by simp at hv ⊢; exact .inr hv), fun v hv => h3 v (by simp at hv ⊢; exact .inr hv)⟩
      refine happ _ he h1 ?_ ?_
      · intro tk htk
        obtain ⟨x, hx, e⟩ := List.mem_map.1 htk
        subst e
        exact h2 (d, analyze d) (by simp) x (List.mem_of_mem_take hx)
      · intro tk htk
        cases hd : analyze d with
        | nil => rw [hd] at htk; simp at htk
        | cons y ys =>
          rw [hd] at htk
          simp at htk
          subst htk
          exact h3 (d, analyze d) (by simp) y (by simp [hd]))
    refine ⟨r2, ?_, ?_⟩
    · simp only [valueLoop, e1, Res.ok_bind, e2]
    · rw [hn] at i2
      simpa [keptTokens] using i2

/-- The whole value as one token. -/
def wholeToken (d : List Byte) : Token := ⟨wholeText d, 0, d.length, 1⟩

theorem endPos_ones (toks : List Token) (h : ∀ tk ∈ toks, tk.posInc = 1) : endPos (-1) toks = toks.length - 1 := by
  have : (toks.map (·.posInc)).sum = toks.length := by
    induction toks with
    | nil => rfl
    | cons tk toks ih =>
      simp only [List.map_cons, List.sum_cons, List.length_cons, h tk (by simp), ih (fun x hx => h x (by simp [hx]))]
      omega
  unfold endPos
  omega

theorem wholeLoop_spec {c : Nat} {old : Term → List Posting} {k : Nat} {offsets : Bool} {base : List (Int × Int)} :
    ∀ (ds : List (List Byte)) (start : Int) (toks : List Token) (r : Run), RInv c old k offsets base toks r → (∀ tk ∈ toks, tk.posInc = 1) →
    ∃ r', wholeLoop offsets k start ds r = .ok r' ∧
      RInv c old k offsets base (toks ++ allTokens start (ds.map fun d => (d, [wholeToken d]))) r' := by
  intro ds
  induction ds with
  | nil => intro start toks r h _; exact ⟨r, rfl, by simpa [allTokens] using h⟩
  | cons d ds ih =>
    intro start toks r h h1
    have h2 : ∀ tk ∈ toks ++ [shift start (wholeToken d)], tk.posInc = 1 := by
      intro tk htk
      rcases List.mem_append.1 htk with htk | htk
      · exact h1 tk htk
      · simp only [List.mem_singleton] at htk; subst htk; rfl
    obtain ⟨r1, e1, i1, _⟩ := place_spec h (shift start (wholeToken d)) (fun _ =>
      ⟨fun tk htk => by rw [h2 tk htk]; omega, fun tk htk => by rw [h2 tk (List.mem_of_head? htk)]; omega⟩)
    have hpos : endPos (-1) toks + (shift start (wholeToken d)).posInc = (r.num : Int) := by
      rw [endPos_ones toks h1, h.num]
      show (toks.length : Int) - 1 + 1 = _
      omega
    rw [hpos] at e1
    obtain ⟨r2, e2, i2⟩ := ih (start + d.length + 1) _ r1 i1 h2
    refine ⟨r2, ?_, by simpa [allTokens] using i2⟩
    have e1' : place offsets k (wholeText d) r.num start (start + d.length) r = .ok r1 := by
      have := e1
      simp only [shift, wholeToken, Int.add_zero] at this
      exact this
    simp only [wholeLoop, e1', Res.ok_bind, e2]

theorem keptTokens_all (max : Int) : ∀ (vs : List (List Byte × List Token)) (n : Nat) (start : Int),
    (n : Int) + ((vs.map (fun v => v.2.length)).sum : Nat) ≤ max → keptTokens max n start vs = allTokens start vs := by
  intro vs
  induction vs with
  | nil => intro n start _; rfl
  | cons v vs ih =>
    intro n start h
    obtain ⟨d, tks⟩ := v
    simp only [List.map_cons, List.sum_cons] at h
    have ht : tks.take ((max - n).toNat + 1) = tks := List.take_of_length_le (by omega)
    simp only [keptTokens, allTokens, ht]
    rw [ih _ _ (by push_cast at h ⊢; omega)]

end Ferret.Inv
