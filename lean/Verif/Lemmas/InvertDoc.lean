import Verif.Lemmas.Invert
import Verif.Lemmas.FieldsRun

namespace Ferret.Inv
open Ferret Ferret.Spec Ferret.Fis Ferret.Fields Ferret.Dict Ferret.Expand Ferret.Post

/-! ### Order -/

theorem insertPl_perm (x : Term × List Posting) : ∀ l, (insertPl x l).Perm (x :: l) := by
  intro l
  induction l with
  | nil => exact List.Perm.refl _
  | cons y ys ih =>
    simp only [insertPl]
    split
    · exact (List.Perm.cons y ih).trans (List.Perm.swap x y ys)
    · exact List.Perm.refl _

theorem sortPls_perm : ∀ l, (sortPls l).Perm l := by
  intro l
  induction l with
  | nil => exact List.Perm.refl _
  | cons x xs ih => exact (insertPl_perm x _).trans (List.Perm.cons x ih)

theorem term_total (a b : Term) (h1 : ¬ a < b) (h2 : a ≠ b) : b < a := by
  have h3 : b ≤ a := h1
  rcases Decidable.em (b < a) with h | h
  · exact h
  · exact absurd (List.le_antisymm (show a ≤ b from h) h3) h2

theorem insertPl_asc (x : Term × List Posting) : ∀ l : Plists, (l.Pairwise fun a b => a.1 < b.1) → x.1 ∉ l.map (·.1) →
    (insertPl x l).Pairwise fun a b => a.1 < b.1 := by
  intro l
  induction l with
  | nil => intro _ _; simp [insertPl]
  | cons y ys ih =>
    intro h hn
    rw [List.pairwise_cons] at h
    simp only [List.map_cons, List.mem_cons, not_or] at hn
    simp only [insertPl]
    split
    · rename_i hlt
      rw [List.pairwise_cons]
      refine ⟨?_, ih h.2 hn.2⟩
      intro z hz
      rcases List.mem_cons.1 ((insertPl_perm x ys).mem_iff.1 hz) with rfl | hz
      · exact hlt
      · exact h.1 z hz
    · rename_i hlt
      have hxy : x.1 < y.1 := term_total _ _ hlt (fun e => hn.1 e.symm)
      rw [List.pairwise_cons]
      refine ⟨?_, List.pairwise_cons.2 h⟩
      intro z hz
      rcases List.mem_cons.1 hz with rfl | hz
      · exact hxy
      · exact List.lt_trans hxy (h.1 z hz)

theorem sortPls_asc : ∀ l : Plists, (l.map (·.1)).Nodup → (sortPls l).Pairwise fun a b => a.1 < b.1 := by
  intro l
  induction l with
  | nil => intro _; exact List.Pairwise.nil
  | cons x xs ih =>
    intro h
    rw [List.map_cons, List.nodup_cons] at h
    refine insertPl_asc x _ (ih h.2) ?_
    rw [((sortPls_perm xs).map _).mem_iff]
    exact h.1

theorem asc_unique : ∀ a b : List Term, a.Pairwise (· < ·) → b.Pairwise (· < ·) → (∀ t, t ∈ a ↔ t ∈ b) → a = b := by
  intro a
  induction a with
  | nil =>
    intro b _ _ h
    cases b with
    | nil => rfl
    | cons y b => exact absurd ((h y).2 (by simp)) (by simp)
  | cons x a ih =>
    intro b ha hb h
    cases b with
    | nil => exact absurd ((h x).1 (by simp)) (by simp)
    | cons y b =>
      rw [List.pairwise_cons] at ha hb
      have hxy : x = y := by
        rcases List.mem_cons.1 ((h x).1 (by simp)) with e | e
        · exact e
        · rcases List.mem_cons.1 ((h y).2 (by simp)) with e2 | e2
          · exact e2.symm
          · exact absurd (hb.1 x e) (List.lt_asymm (ha.1 y e2))
      subst hxy
      congr 1
      refine ih b ha.2 hb.2 ?_
      intro t
      constructor
      · intro ht
        rcases List.mem_cons.1 ((h t).1 (by simp [ht])) with e | e
        · subst e; exact absurd (ha.1 t ht) (List.lt_irrefl t)
        · exact e
      · intro ht
        rcases List.mem_cons.1 ((h t).2 (by simp [ht])) with e | e
        · subst e; exact absurd (hb.1 t ht) (List.lt_irrefl t)
        · exact e

theorem insertTerm_mem (t : Term) : ∀ (l : List Term) (u : Term), u ∈ insertTerm t l ↔ u = t ∨ u ∈ l := by
  intro l
  induction l with
  | nil => intro u; simp [insertTerm]
  | cons y ys ih =>
    intro u
    simp only [insertTerm]
    split
    · simp only [List.mem_cons, ih]
      constructor
      · rintro (h | h | h) <;> simp [h]
      · rintro (h | h | h) <;> simp [h]
    · split
      · rename_i e; subst e; simp
      · simp

theorem insertTerm_asc (t : Term) : ∀ l : List Term, l.Pairwise (· < ·) → (insertTerm t l).Pairwise (· < ·) := by
  intro l
  induction l with
  | nil => intro _; simp [insertTerm]
  | cons y ys ih =>
    intro h
    have h' := List.pairwise_cons.1 h
    simp only [insertTerm]
    split
    · rename_i hlt
      rw [List.pairwise_cons]
      refine ⟨?_, ih h'.2⟩
      intro z hz
      rcases (insertTerm_mem t ys z).1 hz with rfl | hz
      · exact hlt
      · exact h'.1 z hz
    · split
      · exact h
      · rename_i h1 h2
        have hty : t < y := term_total _ _ h1 (fun e => h2 e.symm)
        rw [List.pairwise_cons]
        refine ⟨?_, h⟩
        intro z hz
        rcases List.mem_cons.1 hz with rfl | hz
        · exact hty
        · exact List.lt_trans hty (h'.1 z hz)

theorem termsIn_asc : ∀ ps, (termsIn ps).Pairwise (· < ·) := by
  intro ps
  induction ps with
  | nil => exact List.Pairwise.nil
  | cons x xs ih => exact insertTerm_asc _ _ ih

theorem termsIn_mem (t : Term) : ∀ ps, t ∈ termsIn ps ↔ positionsOf ps t ≠ [] := by
  intro ps
  induction ps with
  | nil => simp [termsIn, positionsOf]
  | cons x xs ih =>
    simp only [termsIn, insertTerm_mem, ih]
    unfold positionsOf
    by_cases h : x.1 = t
    · simp [h]
    · have h' : ¬ t = x.1 := fun e => h e.symm
      simp [h, h']

theorem find_key {l : Plists} (h : (l.map (·.1)).Nodup) {y : Term × List Posting} (hy : y ∈ l) : getPl l y.1 = some y.2 := by
  unfold getPl
  induction l with
  | nil => cases hy
  | cons x xs ih =>
    rw [List.map_cons, List.nodup_cons] at h
    rcases List.mem_cons.1 hy with rfl | hy
    · simp
    · have hne : ¬ x.1 = y.1 := fun e => h.1 (e ▸ List.mem_map.2 ⟨y, hy, rfl⟩)
      simp only [List.find?_cons, hne, decide_false]
      exact ih h.2 hy

theorem getPl_mem {l : Plists} {t : Term} {ps : List Posting} (h : getPl l t = some ps) : (t, ps) ∈ l := by
  unfold getPl at h
  rw [Option.map_eq_some_iff] at h
  obtain ⟨y, hy, e⟩ := h
  have h1 := List.find?_some hy
  have h2 := List.mem_of_find?_eq_some hy
  simp only [decide_eq_true_eq] at h1
  subst h1 e
  exact h2

theorem getPl_sort {l : Plists} (h : (l.map (·.1)).Nodup) (t : Term) : getPl (sortPls l) t = getPl l t := by
  have hp := sortPls_perm l
  have hs : ((sortPls l).map (·.1)).Nodup := (hp.map _).nodup_iff.2 h
  cases hg : getPl l t with
  | none =>
    rw [getPl_none] at hg ⊢
    rw [(hp.map _).mem_iff]
    exact hg
  | some ps => exact find_key hs (hp.mem_iff.2 (getPl_mem hg))

theorem occCount_perm {a b : Plists} (h : a.Perm b) : occCount a = occCount b := (h.map _).sum_nat

/-! ### The vector of a field -/

theorem currPls_spec {old : Term → List Posting} {k : Nat} {done : List (Term × Int)} {curr : List Term} {pls : Plists}
    (h : PlInv old k done curr pls) : ∀ ts : List Term, (∀ t ∈ ts, t ∈ curr) →
    currPls pls ts = .ok (ts.map fun t => (t, old t ++ newPosting k (positionsOf done t))) := by
  intro ts
  induction ts with
  | nil => intro _; rfl
  | cons t ts ih =>
    intro hs
    have hne := (h.currs t).1 (hs t (by simp))
    have hl := h.lists t
    rw [optList_ne (newPosting_last (old t) k _ hne).1] at hl
    simp only [currPls, hl, Res.ofOption, Res.ok_bind, ih (fun u hu => hs u (by simp [hu])), List.map_cons]

theorem lastOnes_spec (old : Term → List Posting) (k : Nat) (pos : Term → List Int) : ∀ l : Plists,
    (∀ y ∈ l, pos y.1 ≠ [] ∧ y.2 = old y.1 ++ newPosting k (pos y.1)) →
    lastOnes l = .ok ((l.map (·.1)).map fun t => ⟨t, pos t⟩) := by
  intro l
  induction l with
  | nil => intro _; rfl
  | cons y ys ih =>
    intro h
    obtain ⟨h1, h2⟩ := h y (by simp)
    obtain ⟨t, ps⟩ := y
    dsimp only at h1 h2
    have hl := (newPosting_last (old t) k _ h1).2.1
    rw [← h2] at hl
    simp only [lastOnes, hl, Res.ofOption, Res.ok_bind, ih (fun z hz => h z (by simp [hz])), List.map_cons]

theorem vector_spec {old : Term → List Posting} {k : Nat} {done : List (Term × Int)} {curr : List Term} {pls : Plists}
    (h : PlInv old k done curr pls) :
    ∃ c, currPls pls curr = .ok c ∧ lastOnes (sortPls c) = .ok ((termsIn done).map fun t => ⟨t, positionsOf done t⟩) := by
  refine ⟨_, currPls_spec h curr (fun _ ht => ht), ?_⟩
  generalize hc : (curr.map fun t => (t, old t ++ newPosting k (positionsOf done t))) = c
  have hkeys : c.map (·.1) = curr := by
    rw [← hc, List.map_map]
    exact (List.map_congr_left (fun _ _ => rfl)).trans (List.map_id curr)
  have hn : (c.map (·.1)).Nodup := by rw [hkeys]; exact h.currNodup
  rw [lastOnes_spec old k (positionsOf done) (sortPls c) (by
    intro y hy
    rw [(sortPls_perm c).mem_iff, ← hc] at hy
    obtain ⟨t, ht, rfl⟩ := List.mem_map.1 hy
    exact ⟨(h.currs t).1 ht, rfl⟩)]
  congr 2
  refine asc_unique _ _ ?_ (termsIn_asc done) ?_
  · rw [List.pairwise_map]; exact sortPls_asc c hn
  · intro t
    rw [((sortPls_perm c).map _).mem_iff, hkeys, termsIn_mem]
    exact h.currs t

/-- The terms of a vector. -/
def vectorTerms (toks : List Token) : List PL := (termsIn (places toks)).map fun t => ⟨t, positionsOf (places toks) t⟩

theorem OffInv.table {toks : List Token} {offs : List (Int × Int)} {size : Nat} (h : OffInv (spansFrom (-1) toks) offs size) :
    offs.take size = offsetTable toks ∧ ∀ p : Nat, ((List.replicate size ((0 : Int), (0 : Int)) ++ offs.drop size)[p]?).getD (0, 0) = (0, 0) := by
  have hs : (spansFrom (-1) toks).getLast?.elim 0 (fun s => (s.1 + 1).toNat) = size := by
    have := h.sized
    cases hl : (spansFrom (-1) toks).getLast? with
    | none => rw [hl] at this; simp at this; simp [this]
    | some s => rw [hl] at this; simp at this; simp; omega
  refine ⟨?_, ?_⟩
  · unfold offsetTable
    rw [hs]
    apply List.ext_getElem
    · simp; exact Nat.min_eq_left h.room
    · intro i h1 h2
      simp only [List.length_map, List.length_range] at h2
      have hr := h.room
      rw [List.getElem_take, List.getElem_map, List.getElem_range, ← h.at_ i, List.getElem?_eq_getElem (by omega)]
      rfl
  · intro p
    by_cases hp : p < size
    · rw [List.getElem?_append_left (by simpa using hp), List.getElem?_replicate, if_pos hp]; rfl
    · rw [List.getElem?_append_right (by simpa using hp), List.length_replicate, List.getElem?_drop]
      have := h.at_ (size + (p - size))
      rw [this]
      unfold spanAt
      have hnil : (spansFrom (-1) toks).filter (fun s => decide (s.1 = ((size + (p - size) : Nat) : Int))) = [] := by
        rw [List.filter_eq_nil_iff]
        intro s hm
        have := h.below s hm
        simp
        omega
      rw [hnil]
      rfl

/-! ### What an inverter holds -/

/-- The documents of a term; documents are given by the tokens of the field, if they have it. -/
def expected (os : List (Option (List Token))) (t : Term) : List Posting :=
  (occurrences (os.map fun o => places (o.getD [])) t).map fun o => ⟨o.1, o.2.length, o.2⟩

theorem occurrencesFrom_append : ∀ (a b : List (List (Term × Int))) (k : Nat) (t : Term),
    occurrencesFrom k (a ++ b) t = occurrencesFrom k a t ++ occurrencesFrom (k + a.length) b t := by
  intro a
  induction a with
  | nil => intro b k t; simp [occurrencesFrom]
  | cons d a ih =>
    intro b k t
    simp only [List.cons_append, occurrencesFrom, ih, List.length_cons]
    have e : k + 1 + a.length = k + (a.length + 1) := by omega
    rw [e]
    split <;> simp

theorem expected_snoc (os : List (Option (List Token))) (o : Option (List Token)) (t : Term) :
    expected (os ++ [o]) t = expected os t ++ newPosting os.length (positionsOf (places (o.getD [])) t) := by
  unfold expected occurrences
  rw [List.map_append, occurrencesFrom_append, List.map_append, List.length_map]
  congr 1
  simp only [List.map_cons, List.map_nil, occurrencesFrom, Nat.zero_add, newPosting]
  cases positionsOf (places (o.getD [])) t <;> simp

/-- The norm of document `k`. -/
def normAt (cfg : Cfg) (fi : FI) (os : List (Option (List Token))) (k : Nat) : Byte :=
  match os[k]? with
  | some (some toks) => cfg.norm fi k toks.length
  | _ => 0

/-- An inverter after documents. -/
structure FOK (cfg : Cfg) (fi : FI) (os : List (Option (List Token))) (f : FldInv) : Prop where
  keys : (f.plists.map (·.1)).Nodup
  lists : ∀ t, getPl f.plists t = optList (expected os t)
  count : occCount f.plists = (os.map fun o => (o.getD []).length).sum
  room : f.norms.length = cfg.maxBuffered
  norms : hasNorms fi = true → ∀ k, k < cfg.maxBuffered → f.norms[k]? = some (normAt cfg fi os k)

theorem normAt_none (cfg : Cfg) (fi : FI) (os : List (Option (List Token))) (k : Nat) : normAt cfg fi (os ++ [none]) k = normAt cfg fi os k := by
  unfold normAt
  by_cases h : k < os.length
  · rw [List.getElem?_append_left h]
  · rw [List.getElem?_append_right (by omega), List.getElem?_eq_none (l := os) (by omega)]
    cases hk : k - os.length with
    | zero => rfl
    | succ j => rfl

theorem FOK.none {cfg : Cfg} {fi : FI} {os : List (Option (List Token))} {f : FldInv} (h : FOK cfg fi os f) : FOK cfg fi (os ++ [none]) f := by
  refine ⟨h.keys, ?_, ?_, h.room, ?_⟩
  · intro t
    rw [expected_snoc, h.lists t]
    simp [places, placesFrom, positionsOf, newPosting]
  · rw [h.count]; simp
  · intro hn k hk
    rw [normAt_none]
    exact h.norms hn k hk

theorem FOK.new (cfg : Cfg) (fi : FI) : FOK cfg fi [] ⟨[], List.replicate cfg.maxBuffered 0⟩ := by
  refine ⟨List.nodup_nil, fun _ => rfl, rfl, by simp, ?_⟩
  intro _ k hk
  simp [normAt, hk]

theorem FOK.of_none {cfg : Cfg} {fi : FI} {os : List (Option (List Token))} {f : FldInv} (h : FOK cfg fi (os ++ [.none]) f) : FOK cfg fi os f := by
  refine ⟨h.keys, ?_, ?_, h.room, ?_⟩
  · intro t
    rw [h.lists t, expected_snoc]
    simp [places, placesFrom, positionsOf, newPosting]
  · rw [h.count]; simp
  · intro hn k hk
    rw [← normAt_none]
    exact h.norms hn k hk

/-- The tokens of a field that are indexed. -/
def fieldTokens (cfg : Cfg) (fi : FI) (f : DocF) : List Token :=
  if isTokenized fi then keptTokens cfg.maxField 0 0 (f.data.map fun d => (d, cfg.analyze f.name d))
  else allTokens 0 (f.data.map fun d => (d, [wholeToken d]))

/-- The tokens of a field with offsets go forward. -/
def GoodInc (cfg : Cfg) (fi : FI) (f : DocF) : Prop := isTokenized fi = true → storeOffsets fi = true →
  ∀ d ∈ f.data, (∀ tk ∈ cfg.analyze f.name d, 0 ≤ tk.posInc) ∧ ∀ tk, (cfg.analyze f.name d).head? = some tk → 1 ≤ tk.posInc

theorem invertField_spec {cfg : Cfg} {fi : FI} {os : List (Option (List Token))} {inv : FldInv} (h : FOK cfg fi os inv) (f : DocF)
    (hg : GoodInc cfg fi f) {offs : List (Int × Int)} (hz : ∀ p : Nat, (offs[p]?).getD (0, 0) = (0, 0)) :
    ∃ r, invertField cfg fi os.length f inv.plists offs = .ok r ∧
      RInv (occCount inv.plists) (expected os) os.length (storeOffsets fi) offs (fieldTokens cfg fi f) r := by
  have h0 : RInv (occCount inv.plists) (expected os) os.length (storeOffsets fi) offs [] ⟨[], inv.plists, offs, 0, -1, 0⟩ := by
    refine ⟨⟨h.keys, List.nodup_nil, ?_, ?_⟩, rfl, by simp, ?_, fun _ => ⟨rfl, rfl⟩⟩
    · intro t; simp [places, placesFrom, positionsOf]
    · intro t
      rw [h.lists t]
      simp [places, placesFrom, positionsOf, newPosting]
    · intro _
      exact ⟨hz, rfl, Nat.zero_le _, fun s hs => by cases hs⟩
  unfold invertField fieldTokens
  cases ht : isTokenized fi with
  | true =>
    simp only [if_true]
    have := valueLoop_spec (cfg.analyze f.name) cfg.maxField f.data 0 [] _ h0 (by simp [endPos]) (by
      intro he
      refine ⟨⟨fun _ hx => (nomatch hx), fun _ hx => (nomatch hx)⟩, ?_, ?_⟩
      · intro v hv
        obtain ⟨d, hd, rfl⟩ := List.mem_map.1 hv
        exact (hg ht he d hd).1
      · intro v hv
        obtain ⟨d, hd, rfl⟩ := List.mem_map.1 hv
        exact (hg ht he d hd).2)
    simpa using this
  | false =>
    simp only [Bool.false_eq_true, if_false]
    have := wholeLoop_spec f.data 0 [] _ h0 (fun _ hx => by cases hx)
    simpa using this

theorem FOK.step {cfg : Cfg} {fi : FI} {os : List (Option (List Token))} {inv : FldInv} (h : FOK cfg fi os inv) {toks : List Token} {r : Run}
    {b : Bool} {offs : List (Int × Int)} (hr : RInv (occCount inv.plists) (expected os) os.length b offs toks r) (hk : os.length < cfg.maxBuffered)
    (norms : List Byte) (hnorms : norms = if hasNorms fi then inv.norms.set os.length (cfg.norm fi os.length r.num) else inv.norms) :
    FOK cfg fi (os ++ [some toks]) ⟨r.pls, norms⟩ := by
  refine ⟨hr.pl.keys, ?_, ?_, ?_, ?_⟩
  · intro t
    rw [hr.pl.lists t, expected_snoc]
    rfl
  · rw [hr.count, h.count]; simp
  · dsimp only
    rw [hnorms]
    split
    · rw [List.length_set]; exact h.room
    · exact h.room
  · intro hn k hkk
    dsimp only
    rw [hnorms, if_pos hn, List.getElem?_set]
    unfold normAt
    by_cases hke : os.length = k
    · rw [if_pos hke, if_pos (by rw [h.room]; omega), ← hke, List.getElem?_append_right (Nat.le_refl _), Nat.sub_self, hr.num]
      rfl
    · rw [if_neg hke, h.norms hn k hkk]
      unfold normAt
      by_cases hlt : k < os.length
      · rw [List.getElem?_append_left hlt]
      · rw [List.getElem?_eq_none (l := os) (by omega), List.getElem?_eq_none (by simp; omega)]

/-! ### A document -/

/-- The tokens of a field of a document, if it has the field. -/
def docTokens (cfg : Cfg) (fi : FI) (d : Doc) : Option (List Token) := (d.find? fun f => f.name == fi.name).map (fieldTokens cfg fi)

theorem getInv_setInv (x : List (Nat × FldInv)) (n : Nat) (f : FldInv) (m : Nat) :
    getInv (setInv x n f) m = if m = n then some f else getInv x m := by
  unfold getInv setInv
  by_cases h : m = n
  · subst h; simp
  · have h' : ¬ n = m := fun e => h e.symm
    rw [if_neg h, List.find?_cons]
    simp only [beq_iff_eq, h', ite_false]
    have : (n == m) = false := by simp [h']
    rw [this]
    simp only [List.find?_filter]
    congr 2
    funext e
    by_cases he : e.1 = m
    · subst he
      simp [h]
    · simp [he]

/-- The writer's inverted part, for a table of fields, after documents. -/
structure IOK (cfg : Cfg) (T : FIS) (ds : List Doc) (x : Inv) : Prop where
  zero : ∀ p : Nat, (x.offs[p]?).getD (0, 0) = (0, 0)
  fields : ∀ fi, getField T fi.name = some fi → isIndexed fi = true →
    FOK cfg fi (ds.map (docTokens cfg fi)) (inverterOf cfg x.fields fi.number)
  seen : ∀ fi, getField T fi.name = some fi → isIndexed fi = true →
    (getInv x.fields fi.number = none ↔ ∀ d ∈ ds, docTokens cfg fi d = none)

/-- The vectors of a document, by name. -/
def vectorsOf (cfg : Cfg) (T : FIS) (d : Doc) : List TvIn :=
  d.filterMap fun f =>
    match getField T f.name with
    | none => none
    | some fi =>
      if isIndexed fi = true ∧ storeTermVector fi = true then
        some ⟨f.name, vectorTerms (fieldTokens cfg fi f), if storeOffsets fi then offsetTable (fieldTokens cfg fi f) else []⟩
      else none

/-- The same by number. -/
def vectorNums (cfg : Cfg) (T : FIS) (d : Doc) : List TvE :=
  d.filterMap fun f =>
    match getField T f.name with
    | none => none
    | some fi =>
      if isIndexed fi = true ∧ storeTermVector fi = true then
        some (fi.number, vectorTerms (fieldTokens cfg fi f), if storeOffsets fi then offsetTable (fieldTokens cfg fi f) else [])
      else none

theorem number_inj {T : FIS} (hT : WF T) {a b : FI} (ha : getField T a.name = some a) (hb : getField T b.name = some b) (h : a.number = b.number) : a = b := by
  have h1 := (getField_byNumber hT ha).1
  have h2 := (getField_byNumber hT hb).1
  rw [h, h2] at h1
  exact (Option.some.inj h1).symm

theorem invertFields_spec {cfg : Cfg} {t T : FIS} (hT : WF T) (hwi : Within t T) (ds : List Doc) (hk : ds.length < cfg.maxBuffered) :
    ∀ (fs pre : Doc) (x : Inv), ((pre ++ fs).map (·.name)).Nodup → IOK cfg T (ds ++ [pre]) x → x.docNum = ds.length →
    (∀ f ∈ fs, ∃ fi, getField t f.name = some fi ∧ GoodInc cfg fi f) →
    ∃ x', invertFields cfg t fs x = .ok (x', vectorNums cfg T fs) ∧ IOK cfg T (ds ++ [pre ++ fs]) x' ∧ x'.docNum = ds.length := by
  intro fs
  induction fs with
  | nil => intro pre x _ h hn _; exact ⟨x, rfl, by simpa using h, hn⟩
  | cons f fs ih =>
    intro pre x hnd h hn hf
    obtain ⟨fi, hfi, hgi⟩ := hf f (by simp)
    have hfiT := getField_within hwi hfi
    have hname := (getField_byNumber hT hfiT).2.1
    have hself : getField T fi.name = some fi := by rw [hname]; exact hfiT
    have hnd' : ((pre ++ [f] ++ fs).map (·.name)).Nodup := by simpa using hnd
    have hpre : f.name ∉ pre.map (·.name) := by
      rw [List.map_append, List.nodup_append] at hnd
      intro hm
      exact hnd.2.2 f.name hm f.name (by simp) rfl
    -- other fields see no difference
    have hother : ∀ fj, fj.name ≠ f.name → docTokens cfg fj (pre ++ [f]) = docTokens cfg fj pre := by
      intro fj hj
      unfold docTokens
      rw [List.find?_append]
      have : (f.name == fj.name) = false := by simp; exact fun e => hj e.symm
      simp [List.find?_cons, this]
    have hmine0 : docTokens cfg fi pre = none := by
      unfold docTokens
      rw [Option.map_eq_none_iff, List.find?_eq_none]
      intro g hg
      simp only [beq_iff_eq]
      intro e
      exact hpre (List.mem_map.2 ⟨g, hg, by rw [e, hname]⟩)
    have hmine1 : docTokens cfg fi (pre ++ [f]) = some (fieldTokens cfg fi f) := by
      have h0 := hmine0
      unfold docTokens at h0 ⊢
      rw [Option.map_eq_none_iff] at h0
      rw [List.find?_append, h0]
      simp [hname]
    have hvn : vectorNums cfg T (f :: fs) = (if isIndexed fi = true ∧ storeTermVector fi = true then
        [(fi.number, vectorTerms (fieldTokens cfg fi f), if storeOffsets fi then offsetTable (fieldTokens cfg fi f) else [])] else []) ++ vectorNums cfg T fs := by
      unfold vectorNums
      rw [List.filterMap_cons, hfiT]
      dsimp only
      split
      · rename_i h1
        split at h1
        · cases h1
        · rename_i h2; rw [if_neg h2]; rfl
      · rename_i h1
        split at h1
        · rename_i h2; cases h1; rw [if_pos h2]; rfl
        · cases h1
    simp only [invertFields, hfi, Res.ofOption, Res.ok_bind]
    cases hix : isIndexed fi with
    | false =>
      simp only [Bool.false_eq_true, if_false]
      have hstep : IOK cfg T (ds ++ [pre ++ [f]]) x := by
        have hne : ∀ fj, getField T fj.name = some fj → isIndexed fj = true → fj.name ≠ f.name := by
          intro fj hj hjx e
          rw [e, hfiT] at hj
          cases hj
          rw [hix] at hjx
          cases hjx
        refine ⟨h.zero, ?_, ?_⟩
        · intro fj hj hjx
          have := h.fields fj hj hjx
          rw [List.map_append, List.map_cons, List.map_nil] at this ⊢
          rw [hother fj (hne fj hj hjx)]
          exact this
        · intro fj hj hjx
          rw [h.seen fj hj hjx, List.forall_mem_append, List.forall_mem_append]
          simp only [List.forall_mem_singleton, hother fj (hne fj hj hjx)]
      obtain ⟨x', e, i, n⟩ := ih (pre ++ [f]) x hnd' hstep hn (fun g hg => hf g (by simp [hg]))
      refine ⟨x', ?_, by simpa using i, n⟩
      rw [e, hvn, if_neg (by simp [hix])]
      rfl
    | true =>
      simp only [if_true]
      have hfok := h.fields fi hself hix
      rw [List.map_append, List.map_cons, List.map_nil, hmine0] at hfok
      have hfok := hfok.of_none
      have hlen : (ds.map (docTokens cfg fi)).length = ds.length := List.length_map _
      obtain ⟨r, er, ir⟩ := invertField_spec hfok f hgi h.zero
      rw [hlen, ← hn] at er
      rw [er, Res.ok_bind]
      have hoffs : r.offs.take r.offSize = (if storeOffsets fi then offsetTable (fieldTokens cfg fi f) else []) ∧
          ∀ p : Nat, ((List.replicate r.offSize ((0 : Int), (0 : Int)) ++ r.offs.drop r.offSize)[p]?).getD (0, 0) = (0, 0) := by
        cases hso : storeOffsets fi with
        | true =>
          rw [hso] at ir
          simp only [if_true]
          exact (ir.offs rfl).table
        | false =>
          rw [hso] at ir
          obtain ⟨o1, o2⟩ := ir.noOffs rfl
          rw [o1, o2]
          simp only [List.take_zero, Bool.false_eq_true, if_false, List.replicate_zero, List.nil_append, List.drop_zero, true_and]
          exact h.zero
      have htv : (if storeTermVector fi = true then
          currPls r.pls r.curr >>= fun c => lastOnes (sortPls c) >>= fun l => Res.ok [(fi.number, l, r.offs.take r.offSize)]
          else Res.ok []) = Res.ok (if isIndexed fi = true ∧ storeTermVector fi = true then
        [(fi.number, vectorTerms (fieldTokens cfg fi f), if storeOffsets fi then offsetTable (fieldTokens cfg fi f) else [])] else []) := by
        cases hst : storeTermVector fi with
        | false => simp
        | true =>
          obtain ⟨c, e1, e2⟩ := vector_spec ir.pl
          rw [if_pos rfl, if_pos ⟨hix, rfl⟩, e1, Res.ok_bind, e2, Res.ok_bind, hoffs.1]
          rfl
      rw [htv, Res.ok_bind]
      have hroom : x.docNum < (inverterOf cfg x.fields fi.number).norms.length := by rw [hfok.room, hn]; exact hk
      have hnorms : (if hasNorms fi = true then
          if x.docNum < (inverterOf cfg x.fields fi.number).norms.length then
            Res.ok ((inverterOf cfg x.fields fi.number).norms.set x.docNum (cfg.norm fi x.docNum r.num)) else Res.ub
          else Res.ok (inverterOf cfg x.fields fi.number).norms) =
          Res.ok (if hasNorms fi then (inverterOf cfg x.fields fi.number).norms.set (ds.map (docTokens cfg fi)).length
            (cfg.norm fi (ds.map (docTokens cfg fi)).length r.num) else (inverterOf cfg x.fields fi.number).norms) := by
        rw [if_pos hroom, hlen, hn]
        split <;> rfl
      rw [hnorms, Res.ok_bind]
      have hnew := hfok.step ir (by rw [hlen]; exact hk) _ rfl
      generalize hX : (⟨setInv x.fields fi.number ⟨r.pls, if hasNorms fi then (inverterOf cfg x.fields fi.number).norms.set (ds.map (docTokens cfg fi)).length
            (cfg.norm fi (ds.map (docTokens cfg fi)).length r.num) else (inverterOf cfg x.fields fi.number).norms⟩,
            List.replicate r.offSize (0, 0) ++ r.offs.drop r.offSize, x.docNum⟩ : Inv) = X
      have hstep : IOK cfg T (ds ++ [pre ++ [f]]) X := by
        subst hX
        have hne : ∀ fj, getField T fj.name = some fj → ¬ fj.number = fi.number → fj.name ≠ f.name := by
          intro fj hj hnum e
          rw [e, hfiT] at hj
          cases hj
          exact hnum rfl
        refine ⟨hoffs.2, ?_, ?_⟩
        · intro fj hj hjx
          rw [List.map_append, List.map_cons, List.map_nil]
          unfold inverterOf
          dsimp only
          rw [getInv_setInv]
          by_cases hnum : fj.number = fi.number
          · have hfj := number_inj hT hj hself hnum
            subst hfj
            rw [if_pos rfl, hmine1]
            exact hnew
          · rw [if_neg hnum]
            have := h.fields fj hj hjx
            rw [List.map_append, List.map_cons, List.map_nil] at this
            rw [hother fj (hne fj hj hnum)]
            exact this
        · intro fj hj hjx
          dsimp only
          rw [getInv_setInv]
          by_cases hnum : fj.number = fi.number
          · have hfj := number_inj hT hj hself hnum
            subst hfj
            rw [if_pos rfl]
            constructor
            · intro e; cases e
            · intro e
              have := e (pre ++ [f]) (by simp)
              rw [hmine1] at this
              cases this
          · rw [if_neg hnum, h.seen fj hj hjx, List.forall_mem_append, List.forall_mem_append]
            simp only [List.forall_mem_singleton, hother fj (hne fj hj hnum)]
      obtain ⟨x', e, i, n⟩ := ih (pre ++ [f]) X hnd' hstep (by rw [← hX]; exact hn) (fun g hg => hf g (by simp [hg]))
      refine ⟨x', ?_, by simpa using i, n⟩
      rw [e, Res.ok_bind, hvn]

theorem IOK.begin {cfg : Cfg} {T : FIS} {ds : List Doc} {x : Inv} (h : IOK cfg T ds x) : IOK cfg T (ds ++ [[]]) x := by
  refine ⟨h.zero, ?_, ?_⟩
  · intro fi h1 h2
    rw [List.map_append]
    exact (h.fields fi h1 h2).none
  · intro fi h1 h2
    rw [h.seen fi h1 h2, List.forall_mem_append]
    simp [docTokens]

theorem IOK.new (cfg : Cfg) (T : FIS) : IOK cfg T [] invNew := by
  refine ⟨fun p => rfl, ?_, ?_⟩
  · intro fi _ _
    exact FOK.new cfg fi
  · intro fi _ _
    simp [invNew, getInv]

theorem resolve_vectors (cfg : Cfg) (T : FIS) : ∀ d : Doc, resolve T (vectorsOf cfg T d) = .ok (vectorNums cfg T d) := by
  intro d
  induction d with
  | nil => rfl
  | cons f d ih =>
    unfold vectorsOf vectorNums at ih ⊢
    rw [List.filterMap_cons, List.filterMap_cons]
    cases hg : getField T f.name with
    | none => exact ih
    | some fi =>
      dsimp only
      by_cases hc : isIndexed fi = true ∧ storeTermVector fi = true
      · rw [if_pos hc, if_pos hc]
        simp only [resolve, hg, Res.ofOption, Res.ok_bind]
        rw [ih, Res.ok_bind]
      · rw [if_neg hc, if_neg hc]
        exact ih

theorem vectorsOf_within {cfg : Cfg} {t T : FIS} (h : Within t T) (d : Doc) (hk : ∀ f ∈ d, ∃ fi, getField t f.name = some fi) :
    vectorsOf cfg t d = vectorsOf cfg T d ∧ vectorNums cfg t d = vectorNums cfg T d := by
  induction d with
  | nil => exact ⟨rfl, rfl⟩
  | cons f d ih =>
    obtain ⟨fi, hfi⟩ := hk f (by simp)
    obtain ⟨h1, h2⟩ := ih (fun g hg => hk g (by simp [hg]))
    unfold vectorsOf at h1 ⊢
    unfold vectorNums at h2 ⊢
    simp only [List.filterMap_cons, hfi, getField_within h hfi, h1, h2, and_self]

/-! ### Histories -/

/-- What happens to a document writer: a field is described, or a document is added. -/
inductive IEvent where
  | field (f : FI)
  | doc (d : Doc)

/-- The documents added. -/
def docsIn : List IEvent → List Doc
  | [] => []
  | .field _ :: es => docsIn es
  | .doc d :: es => d :: docsIn es

/-- The writer through a history: its fields writer and its inverted part. -/
def irun (Z : Zip) (cfg : Cfg) : FW → Inv → List IEvent → Res (FW × Inv)
  | w, x, [] => .ok (w, x)
  | w, x, .field f :: es => irun Z cfg { w with fis := match addField w.fis f with | .ok t' => t' | _ => w.fis } x es
  | w, x, .doc d :: es => addDoc Z cfg w x d >>= fun r => irun Z cfg r.1 r.2 es

/-- The fields after a history. -/
def fieldsAfter : FIS → List IEvent → FIS
  | t, [] => t
  | t, .field f :: es => fieldsAfter (match addField t f with | .ok t' => t' | _ => t) es
  | t, .doc d :: es => fieldsAfter (afterDoc t d) es

/-- What the fields writer sees of a history. -/
def seenBy (cfg : Cfg) (T : FIS) : IEvent → Event
  | .field f => .field f
  | .doc d => .doc d (vectorsOf cfg T d)

theorem tableAfter_seen (cfg : Cfg) (T : FIS) : ∀ (es : List IEvent) (t : FIS), tableAfter t (es.map (seenBy cfg T)) = fieldsAfter t es := by
  intro es
  induction es with
  | nil => intro t; rfl
  | cons e es ih =>
    intro t
    cases e with
    | field f => exact ih _
    | doc d => exact ih _

theorem docsOf_seen (cfg : Cfg) (T : FIS) : ∀ es : List IEvent, Fields.docsOf (es.map (seenBy cfg T)) = (docsIn es).map fun d => (d, vectorsOf cfg T d) := by
  intro es
  induction es with
  | nil => rfl
  | cons e es ih =>
    cases e with
    | field f => exact ih
    | doc d => simp only [List.map_cons, seenBy, Fields.docsOf, docsIn, ih]

theorem fieldsAfter_spec (es : List IEvent) (t : FIS) (h : WF t) : WF (fieldsAfter t es) ∧ Within t (fieldsAfter t es) := by
  have := tableAfter_spec (es.map (seenBy ⟨fun _ _ => [], fun _ _ _ => 0, 0, 0⟩ t)) t h
  rwa [tableAfter_seen] at this

theorem addDoc_spec {Z : Zip} (hZ : Lawful Z) {cfg : Cfg} {T : FIS} (hT : WF T) (w : FW) (hw : WF w.fis) (d : Doc) (hwi : Within (afterDoc w.fis d) T)
    (hd : GoodDoc Z T d) (hinc : ∀ f ∈ d, ∀ fi, getField T f.name = some fi → GoodInc cfg fi f) (ds : List Doc) (hk : ds.length < cfg.maxBuffered)
    {x : Inv} (hx : IOK cfg T ds x) (hn : x.docNum = ds.length) :
    ∃ w' x', addDoc Z cfg w x d = .ok (w', x') ∧ addDocument Z w d (vectorNums cfg T d) = .ok w' ∧ w'.fis = afterDoc w.fis d ∧
      IOK cfg T (ds ++ [d]) x' ∧ x'.docNum = ds.length + 1 := by
  obtain ⟨h1, h2, _, h4⟩ := afterDoc_spec d w.fis hw
  have hd' := GoodDoc.earlier hwi h4 hd
  obtain ⟨w', e1, e2, _, _⟩ := addDocument_spec hZ w hw d (vectorNums cfg T d) hd' (by
    rw [← (vectorsOf_within hwi d h4).2]
    intro e he
    unfold vectorNums at he
    obtain ⟨f, hf, hfe⟩ := List.mem_filterMap.1 he
    obtain ⟨fi, hfi⟩ := h4 f hf
    rw [hfi] at hfe
    dsimp only at hfe
    split at hfe
    · cases hfe; exact ⟨fi, (getField_byNumber h1 hfi).1⟩
    · cases hfe)
  obtain ⟨x', f1, f2, f3⟩ := invertFields_spec hT hwi ds hk d [] x (by simpa using hd.names) hx.begin hn (by
    intro f hf
    obtain ⟨fi, hfi⟩ := h4 f hf
    exact ⟨fi, hfi, hinc f hf fi (getField_within hwi hfi)⟩)
  refine ⟨w', { x' with docNum := x'.docNum + 1 }, ?_, e1, e2, ⟨f2.zero, f2.fields, f2.seen⟩, by simp [f3]⟩
  unfold addDocument at e1
  unfold addDoc
  have hfis : ∃ w1, fwAddDoc Z w d = .ok w1 ∧ w1.fis = afterDoc w.fis d := by
    unfold fwAddDoc
    rw [countStored_spec d _ hw, Res.ok_bind]
    dsimp only
    rw [writeFields_spec hZ _ d h4 hd'.fields, Res.ok_bind]
    exact ⟨_, rfl, rfl⟩
  obtain ⟨w1, g1, g2⟩ := hfis
  rw [g1, Res.ok_bind] at e1 ⊢
  rw [g2, f1, Res.ok_bind]
  dsimp only
  rw [Res.bind_eq_ok] at e1
  obtain ⟨w2, e3, e4⟩ := e1
  rw [e3, Res.ok_bind]
  cases e4
  rfl

theorem irun_spec {Z : Zip} (hZ : Lawful Z) {cfg : Cfg} {T : FIS} (hT : WF T) : ∀ (es : List IEvent) (w : FW) (x : Inv) (ds : List Doc), WF w.fis →
    fieldsAfter w.fis es = T → IOK cfg T ds x → x.docNum = ds.length → ds.length + (docsIn es).length ≤ cfg.maxBuffered →
    (∀ d ∈ docsIn es, GoodDoc Z T d ∧ ∀ f ∈ d, ∀ fi, getField T f.name = some fi → GoodInc cfg fi f) →
    ∃ w' x', irun Z cfg w x es = .ok (w', x') ∧ run Z w (es.map (seenBy cfg T)) = .ok w' ∧ w'.fis = T ∧
      IOK cfg T (ds ++ docsIn es) x' ∧ x'.docNum = (ds ++ docsIn es).length := by
  intro es
  induction es with
  | nil => intro w x ds _ hf hx hn _ _; exact ⟨w, x, rfl, rfl, hf, by simpa [docsIn] using hx, by simpa [docsIn] using hn⟩
  | cons e es ih =>
    intro w x ds hw hf hx hn hk hg
    cases e with
    | field f =>
      obtain ⟨h1, _⟩ := addField_step hw f
      exact ih { w with fis := match addField w.fis f with | .ok t' => t' | _ => w.fis } x ds h1 hf hx hn hk hg
    | doc d =>
      obtain ⟨h1, h2, _, h4⟩ := afterDoc_spec d w.fis hw
      have hwi : Within (afterDoc w.fis d) T := by rw [← hf]; exact (fieldsAfter_spec es _ h1).2
      simp only [docsIn, List.length_cons] at hk
      obtain ⟨g1, g2⟩ := hg d (by simp [docsIn])
      obtain ⟨w1, x1, e1, e2, e3, e4, e5⟩ := addDoc_spec hZ hT w hw d hwi g1 g2 ds (by omega) hx hn
      obtain ⟨w2, x2, f1, f2, f3, f4, f5⟩ := ih w1 x1 (ds ++ [d]) (by rw [e3]; exact h1) (by rw [e3]; exact hf) e4 (by simpa using e5)
        (by simp; omega) (fun d' hd' => hg d' (by simp [docsIn, hd']))
      refine ⟨w2, x2, ?_, ?_, f3, by simpa [docsIn] using f4, by simpa [docsIn] using f5⟩
      · simp only [irun, e1, Res.ok_bind, f1]
      · obtain ⟨v1, v2⟩ := vectorsOf_within (cfg := cfg) hwi d h4
        have hr := resolve_vectors cfg (afterDoc w.fis d) d
        rw [v1, v2] at hr
        simp only [List.map_cons, seenBy, run, hr, Res.ok_bind, e2, f2]

end Ferret.Inv
