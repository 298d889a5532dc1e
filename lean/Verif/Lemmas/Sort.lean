import Verif.Spec.Sort
import Verif.Lemmas.PQMap
import Verif.Lemmas.Search

/-! Field indexes and the order of a sort. -/

namespace Ferret.Sort
open Ferret Ferret.Spec Ferret.Search Ferret.PQ
open Ferret.Expand (Term)

variable {S : Type}

/-! ### Field indexes -/

theorem setDocs_spec {α : Type} (v : α) : ∀ (docs : List Nat) (a : List α), (∀ d ∈ docs, d < a.length) →
    ∃ a', setDocs v a docs = .ok a' ∧ a'.length = a.length ∧ ∀ d, a'[d]? = if d ∈ docs then some v else a[d]?
  | [], a, _ => ⟨a, rfl, rfl, fun d => by simp⟩
  | x :: docs, a, h => by
    obtain ⟨a', h1, h2, h3⟩ := setDocs_spec v docs (a.set x v) (fun d hd => by rw [List.length_set]; exact h d (List.mem_cons_of_mem _ hd))
    have hx : x < a.length := h x (List.mem_cons_self ..)
    refine ⟨a', by rw [setDocs, if_pos hx]; exact h1, by rw [h2, List.length_set], fun d => ?_⟩
    rw [h3 d, List.getElem?_set]
    simp only [List.mem_cons]
    by_cases hd : d ∈ docs
    · simp [hd]
    · by_cases hdx : x = d
      · subst hdx; simp [hx]
      · simp [hd, hdx, Ne.symm hdx]

/-- Terms in turn, each writing one value to its documents. -/
def assign {α : Type} : List α → List (α × List Nat) → Res (List α)
  | a, [] => .ok a
  | a, (v, docs) :: r => setDocs v a docs >>= fun a => assign a r

/-- The value of the last of the pairs that lists the document. -/
def lastVal {α : Type} (r : List (α × List Nat)) (d : Nat) : Option α :=
  ((r.filter fun x => x.2.contains d).map (·.1)).getLast?

theorem lastVal_cons {α : Type} (v : α) (docs : List Nat) (r : List (α × List Nat)) (d : Nat) :
    lastVal ((v, docs) :: r) d = (lastVal r d).or (if d ∈ docs then some v else none) := by
  unfold lastVal
  by_cases h : d ∈ docs
  · rw [List.filter_cons_of_pos (by simpa using h), List.map_cons, List.getLast?_cons, if_pos h]
    cases (List.map (·.1) (List.filter (fun x => x.2.contains d) r)).getLast? <;> rfl
  · rw [List.filter_cons_of_neg (by simpa using h), if_neg h, Option.or_none]

theorem assign_spec {α : Type} : ∀ (r : List (α × List Nat)) (a : List α), (∀ x ∈ r, ∀ d ∈ x.2, d < a.length) →
    ∃ a', assign a r = .ok a' ∧ a'.length = a.length ∧ ∀ d, d < a.length → a'[d]? = (lastVal r d).or a[d]?
  | [], a, _ => ⟨a, rfl, rfl, fun d _ => by simp [lastVal]⟩
  | (v, docs) :: r, a, h => by
    obtain ⟨a1, h1, h2, h3⟩ := setDocs_spec v docs a (h (v, docs) (List.mem_cons_self ..))
    obtain ⟨a2, k1, k2, k3⟩ := assign_spec r a1 (fun x hx d hd => by rw [h2]; exact h x (List.mem_cons_of_mem _ hx) d hd)
    refine ⟨a2, by rw [assign, h1]; exact k1, by rw [k2, h2], fun d hd => ?_⟩
    rw [k3 d (by rw [h2]; exact hd), h3 d, lastVal_cons, Option.or_assoc]
    by_cases hm : d ∈ docs <;> simp [hm]

theorem lastVal_map {α β : Type} (f : α → β) (r : List (α × List Nat)) (d : Nat) :
    lastVal (r.map fun x => (f x.1, x.2)) d = (lastVal r d).map f := by
  unfold lastVal
  rw [List.filter_map, List.map_map, ← List.getLast?_map, List.map_map]
  rfl

theorem lastTerm_eq (terms : List (Term × List Nat)) (d : Nat) : lastTerm terms d = lastVal terms d := rfl

theorem lastVal_mem {α : Type} {r : List (α × List Nat)} {d : Nat} {v : α} (h : lastVal r d = some v) : ∃ docs, (v, docs) ∈ r ∧ d ∈ docs := by
  unfold lastVal at h
  have := List.mem_of_getLast? h
  rw [List.mem_map] at this
  obtain ⟨⟨v', docs⟩, h1, rfl⟩ := this
  rw [List.mem_filter] at h1
  exact ⟨docs, h1.1, by simpa using h1.2⟩

/-- The terms numbered. -/
def numbered : Int → List (Term × List Nat) → List (Int × List Nat)
  | _, [] => []
  | n, (_, docs) :: ts => (n, docs) :: numbered (n + 1) ts

theorem byteLoop_eq : ∀ (ts : List (Term × List Nat)) (n : Int) (a : List Int), byteLoop n a ts = assign a (numbered n ts)
  | [], _, _ => rfl
  | (t, docs) :: ts, n, a => by
    rw [byteLoop, numbered, assign]
    congr 1; funext a; exact byteLoop_eq ts _ a

theorem numbered_docs : ∀ (ts : List (Term × List Nat)) (n : Int) (m : Nat), (∀ x ∈ ts, ∀ d ∈ x.2, d < m) → ∀ x ∈ numbered n ts, ∀ d ∈ x.2, d < m
  | [], _, _, _ => by simp [numbered]
  | (t, docs) :: ts, n, m, h => by
    intro x hx
    rcases List.mem_cons.1 hx with rfl | hx
    · exact h (t, docs) (List.mem_cons_self ..)
    · exact numbered_docs ts _ m (fun y hy => h y (List.mem_cons_of_mem _ hy)) x hx

/-- The number of the last term of a document and the term. -/
theorem numbered_last : ∀ (ts : List (Term × List Nat)) (n : Int) (d : Nat),
    (lastVal (numbered n ts) d = none ∧ lastVal ts d = none) ∨
      ∃ i : Nat, ∃ x, ts[i]? = some x ∧ lastVal (numbered n ts) d = some (n + i) ∧ lastVal ts d = some x.1
  | [], _, _ => Or.inl ⟨rfl, rfl⟩
  | (t, docs) :: ts, n, d => by
    rw [numbered, lastVal_cons, lastVal_cons]
    rcases numbered_last ts (n + 1) d with ⟨h1, h2⟩ | ⟨i, x, h1, h2, h3⟩
    · rw [h1, h2]
      by_cases h : d ∈ docs
      · exact Or.inr ⟨0, (t, docs), rfl, by simp [h], by simp [h]⟩
      · left; simp [h]
    · exact Or.inr ⟨i + 1, x, by simpa using h1, by rw [h2]; simp; omega, by rw [h3]; rfl⟩

theorem intLoop_eq (lib : Lib S) : ∀ (ts : List (Term × List Nat)) (a : List Int), (∀ x ∈ ts, x.2 ≠ [] → lib.scanLd x.1 ≠ none) →
    intLoop lib a ts = assign a (ts.map fun x => ((lib.scanLd x.1).getD 0, x.2))
  | [], _, _ => rfl
  | (t, docs) :: ts, a, h => by
    have ih := fun a => intLoop_eq lib ts a (fun x hx => h x (List.mem_cons_of_mem _ hx))
    rw [intLoop, List.map_cons, assign]
    cases hs : lib.scanLd t with
    | some v => simp only [Option.getD_some]; congr 1; funext a; exact ih a
    | none =>
      cases docs with
      | nil => simp only [setDocs, Res.ok_bind, if_true]; exact ih a
      | cons d ds => exact absurd hs (h _ (List.mem_cons_self ..) (by simp))

theorem floatLoop_eq (lib : Lib S) : ∀ (ts : List (Term × List Nat)) (a : List S), (∀ x ∈ ts, x.2 ≠ [] → lib.scanF x.1 ≠ none) →
    floatLoop lib a ts = assign a (ts.map fun x => (((lib.scanF x.1).map (·.1)).getD lib.zero, x.2))
  | [], _, _ => rfl
  | (t, docs) :: ts, a, h => by
    have ih := fun a => floatLoop_eq lib ts a (fun x hx => h x (List.mem_cons_of_mem _ hx))
    rw [floatLoop, List.map_cons, assign]
    cases hs : lib.scanF t with
    | some v => simp only [Option.map_some, Option.getD_some]; congr 1; funext a; exact ih a
    | none =>
      cases docs with
      | nil => simp only [setDocs, Res.ok_bind, if_true]; exact ih a
      | cons d ds => exact absurd hs (h _ (List.mem_cons_self ..) (by simp))

/-- The terms numbered from a natural number. -/
def numberedN : Nat → List (Term × List Nat) → List (Nat × List Nat)
  | _, [] => []
  | n, (_, docs) :: ts => (n, docs) :: numberedN (n + 1) ts

theorem stringLoop_eq : ∀ (ts : List (Term × List Nat)) (a : List Nat) (vs : List (Option Term)),
    stringLoop a vs ts = assign a (numberedN vs.length ts) >>= fun a => .ok (a, vs ++ ts.map fun x => some x.1)
  | [], a, vs => by simp [stringLoop, numberedN, assign]
  | (t, docs) :: ts, a, vs => by
    rw [stringLoop, numberedN, assign]
    cases setDocs vs.length a docs with
    | ok a =>
      simp only [Res.ok_bind]
      rw [stringLoop_eq ts a (vs ++ [some t])]
      simp [List.append_assoc]
    | raise e => rfl
    | ub => rfl

theorem numberedN_docs : ∀ (ts : List (Term × List Nat)) (n : Nat) (m : Nat), (∀ x ∈ ts, ∀ d ∈ x.2, d < m) → ∀ x ∈ numberedN n ts, ∀ d ∈ x.2, d < m
  | [], _, _, _ => by simp [numberedN]
  | (t, docs) :: ts, n, m, h => by
    intro x hx
    rcases List.mem_cons.1 hx with rfl | hx
    · exact h (t, docs) (List.mem_cons_self ..)
    · exact numberedN_docs ts _ m (fun y hy => h y (List.mem_cons_of_mem _ hy)) x hx

theorem numberedN_last : ∀ (ts : List (Term × List Nat)) (n : Nat) (d : Nat),
    (lastVal (numberedN n ts) d = none ∧ lastVal ts d = none) ∨
      ∃ i : Nat, ∃ x, ts[i]? = some x ∧ lastVal (numberedN n ts) d = some (n + i) ∧ lastVal ts d = some x.1
  | [], _, _ => Or.inl ⟨rfl, rfl⟩
  | (t, docs) :: ts, n, d => by
    rw [numberedN, lastVal_cons, lastVal_cons]
    rcases numberedN_last ts (n + 1) d with ⟨h1, h2⟩ | ⟨i, x, h1, h2, h3⟩
    · rw [h1, h2]
      by_cases h : d ∈ docs
      · exact Or.inr ⟨0, (t, docs), rfl, by simp [h], by simp [h]⟩
      · left; simp [h]
    · exact Or.inr ⟨i + 1, x, by simpa using h1, by rw [h2]; simp; omega, by rw [h3]; rfl⟩

/-- What the comparators read for a document. -/
def keyOf (lib : Lib S) (terms : List (Term × List Nat)) (type : SType) (d : Nat) (score : S) : Key S :=
  match type with
  | .score => .flt score
  | .doc => .long d
  | .byte => .long ((lastVal (numbered 1 terms) d).getD 0)
  | .integer => .long (((lastTerm terms d).bind lib.scanLd).getD 0)
  | .float => .flt ((((lastTerm terms d).bind lib.scanF).map (·.1)).getD lib.zero)
  | .string => .str (lastTerm terms d)
  | .auto => .str none

/-- A field that can be sorted by, by a type other than AUTO. -/
structure FieldOK (lib : Lib S) (maxDoc : Nat) (terms : List (Term × List Nat)) (type : SType) : Prop where
  docs : ∀ x ∈ terms, ∀ d ∈ x.2, d < maxDoc
  sorted : type = .byte → terms.Pairwise fun a b => a.1 < b.1
  ints : type = .integer → ∀ x ∈ terms, x.2 ≠ [] → lib.scanLd x.1 ≠ none
  floats : type = .float → ∀ x ∈ terms, x.2 ≠ [] → lib.scanF x.1 ≠ none

theorem replicate_get {α : Type} {n d : Nat} (v : α) (h : d < n) : (List.replicate n v)[d]? = some v := by
  rw [List.getElem?_replicate, if_pos h]

theorem buildIndex_spec (lib : Lib S) {maxDoc : Nat} {terms : List (Term × List Nat)} {type : SType} (h : FieldOK lib maxDoc terms type)
    (ht : type ≠ .auto ∧ type ≠ .score ∧ type ≠ .doc) :
    ∃ ix, buildIndex lib type maxDoc terms = .ok ix ∧
      ∀ rev d score, d < maxDoc → readKey ⟨type, rev, some ix⟩ d score = .ok (keyOf lib terms type d score) := by
  cases type with
  | score => simp at ht
  | doc => simp at ht
  | auto => simp at ht
  | byte =>
    obtain ⟨a, h1, h2, h3⟩ := assign_spec (numbered 1 terms) (List.replicate maxDoc (0 : Int))
      (by simpa using numbered_docs terms 1 maxDoc h.docs)
    refine ⟨.longs a, by simp only [buildIndex]; rw [byteLoop_eq, h1]; rfl, fun rev d score hd => ?_⟩
    simp only [readKey, keyOf]
    rw [h3 d (by simpa using hd), replicate_get _ hd]
    cases lastVal (numbered 1 terms) d <;> rfl
  | integer =>
    obtain ⟨a, h1, h2, h3⟩ := assign_spec (terms.map fun x => ((lib.scanLd x.1).getD 0, x.2)) (List.replicate maxDoc (0 : Int))
      (by
        intro x hx
        rw [List.mem_map] at hx
        obtain ⟨y, hy, rfl⟩ := hx
        simpa using h.docs y hy)
    refine ⟨.longs a, by simp only [buildIndex]; rw [intLoop_eq lib terms _ (h.ints rfl), h1]; rfl, fun rev d score hd => ?_⟩
    simp only [readKey, keyOf]
    rw [h3 d (by simpa using hd), replicate_get _ hd, lastVal_map (fun t => (lib.scanLd t).getD 0), lastTerm_eq]
    cases lastVal terms d <;> rfl
  | float =>
    obtain ⟨a, h1, h2, h3⟩ := assign_spec (terms.map fun x => (((lib.scanF x.1).map (·.1)).getD lib.zero, x.2)) (List.replicate maxDoc lib.zero)
      (by
        intro x hx
        rw [List.mem_map] at hx
        obtain ⟨y, hy, rfl⟩ := hx
        simpa using h.docs y hy)
    refine ⟨.floats a, by simp only [buildIndex]; rw [floatLoop_eq lib terms _ (h.floats rfl), h1]; rfl, fun rev d score hd => ?_⟩
    simp only [readKey, keyOf]
    rw [h3 d (by simpa using hd), replicate_get _ hd, lastVal_map (fun t => ((lib.scanF t).map (·.1)).getD lib.zero), lastTerm_eq]
    cases lastVal terms d <;> rfl
  | string =>
    obtain ⟨a, h1, h2, h3⟩ := assign_spec (numberedN 1 terms) (List.replicate maxDoc 0)
      (by simpa using numberedN_docs terms 1 maxDoc h.docs)
    refine ⟨.strings a (none :: terms.map fun x => some x.1), by simp only [buildIndex]; rw [stringLoop_eq]; simp [h1], fun rev d score hd => ?_⟩
    simp only [readKey, keyOf]
    rw [h3 d (by simpa using hd), replicate_get _ hd, lastTerm_eq]
    rcases numberedN_last terms 1 d with ⟨k1, k2⟩ | ⟨i, x, k1, k2, k3⟩
    · rw [k1, k2]; rfl
    · rw [k2, k3]
      simp only [Option.some_or, Res.ofOption, Res.ok_bind, Nat.add_comm 1 i, List.getElem?_cons_succ, List.getElem?_map, k1, Option.map_some]

end Ferret.Sort
