import Verif.Lemmas.QueryHeapSearch
import Verif.Props.C82

/-! C83: searching with a query again gives what it gave before. -/

namespace Ferret.Props
open Ferret Ferret.Scorer Ferret.Spec Ferret.QHeap

variable {S L : Type} [DecidableEq S]

/-- **C83 (partial).** Let any number of queries be made, each of its own objects, with positive boosts, in which no boolean
query of one clause is boosted while the innermost of those nested in it is not. In any sequence of searches with
them, in any order and any number of times, every search gives what the query asks for: the search in which boolean queries
of one clause are that clause with both boosts, and queries that only prohibit are all documents without those prohibited.
Not so for the queries of the theorems below. Missing: rounding, reference counts, and the limit on the number of clauses. -/
theorem c83_repeated_partial (X : XArith S) (hX : Exact X) (expand : L → S → Kind L × S) (ix : EIx S L) (h : Heap S L)
    (qs : List (NQ S L)) (hq : ∀ q ∈ qs, NQ.steady X q = true ∧ NQ.positive X q = true) (f : Nat) (hf : ∀ q ∈ qs, q.height < f)
    (hits : NQ S L → List (Int × S)) (hh : ∀ q ∈ qs, searchQuery X ix (NQ.asked X expand q) = .ok (hits q))
    (history : List (NQ S L × Nat)) (hist : ∀ p ∈ history, p ∈ qs.zip (NQ.makeAll X h qs).2) :
    searchesObj X expand ix f (NQ.makeAll X h qs).1 (history.map (·.2)) = .ok (history.map fun p => hits p.1) := by
  obtain ⟨F, hr, -⟩ := makeL_spec X (qs.map fun N => (Occur.should, N)) h
  rw [makeAll_eq] at hr
  exact searchesObj_spec hX expand ix hits (fun N hN => ⟨(hq N hN).1, (hq N hN).2, hf N hN, hh N hN⟩) history _ F hist hr

/-! ### Non-vacuity -/

/-- Prefixes expand to the constant-score query of the same number, with their boost. -/
def expand0 (l : Nat) (b : Rat) : Kind Nat × Rat := (.const l, b)

/-- `(a^2)^3 b` -/
def hq1 : NQ Rat Nat := .bool 1 [(.should, .bool 3 [(.must, .leaf (.term 0) 2)]), (.should, .leaf (.term 1) 1)]
/-- `-a -p*` -/
def hq2 : NQ Rat Nat := .bool 1 [(.mustNot, .leaf (.term 0) 1), (.mustNot, .expands 0 1)]
/-- `(((a b)^2))^3` -/
def hq3 : NQ Rat Nat := .bool 3 [(.should, .bool 1 [(.should, .bool 2 [(.must, .bool 1 [(.should, .leaf (.term 0) 1), (.should, .leaf (.term 1) 1)])])])]

example : ∀ q ∈ [hq1, hq2, hq3], NQ.steady ratX q = true ∧ NQ.positive ratX q = true := by decide +kernel
example : ∀ q ∈ [hq1, hq2, hq3], q.height < 6 := by decide
example : (NQ.makeAll ratX [] [hq1, hq2, hq3]).2 = [3, 6, 12] := by decide +kernel
example : searchQuery ratX explIx (NQ.asked ratX expand0 hq1) = .ok [(0, 1 / 12), (1, 19 / 24), (3, 23 / 6)] ∧
    searchQuery ratX explIx (NQ.asked ratX expand0 hq2) = .ok [(4, 1)] ∧
    searchQuery ratX explIx (NQ.asked ratX expand0 hq3) = .ok [(0, 1 / 222), (1, 109 / 444), (3, 38 / 111)] := by
  decide +kernel
example : searchesObj ratX expand0 explIx 6 (NQ.makeAll ratX [] [hq1, hq2]).1 [3, 6, 3] =
    .ok [[(0, 1 / 12), (1, 19 / 24), (3, 23 / 6)], [(4, 1)], [(0, 1 / 12), (1, 19 / 24), (3, 23 / 6)]] := by
  decide +kernel

/-! ### Where searches change queries -/

/-- **C83, boosts that grow.** A boolean query of one clause with a boost `b`, that clause a boolean query of one clause
without a boost: a search multiplies the boost of the innermost query by `b`, whatever it was, searches with the product,
and leaves it there. So the boosts of the first, second and third search are `t·b`, `t·b·b`, `t·b·b·b`. -/
theorem c83_boost_grows (X : XArith S) (hX : Exact X) (expand : L → S → Kind L × S) (k : Kind L) (b t ob ob' : S) (hb : b ≠ X.one)
    (o o' : Occur) (ho : o ≠ .mustNot) (ho' : o' ≠ .mustNot) :
    weigh X expand 4 4 [.leaf k t, .bool X.one ob' [(o', 0)], .bool b ob [(o, 1)]] 2 =
      .ok ([.leaf k (X.mul t b), .bool X.one ob' [(o', 0)], .bool b t [(o, 1)]], .leaf k (X.mul t b)) := by
  have h1 : X.isOne X.one = true := (hX.isOne _).2 rfl
  have h2 : X.isOne b = false := by
    cases h : X.isOne b with
    | false => rfl
    | true => exact absurd ((hX.isOne _).1 h) hb
  simp [weigh, iseaRewrite, rewriteQ, rewriteOne, single, ho, ho', h1, h2, Res.ok_bind, QObj.boost, QObj.withBoost]
example : (NQ.make ratX [] (.bool 2 [(.must, .bool 1 [(.must, .leaf (.term 0) 1)])] : NQ Rat Nat)).2 = 2 := by decide +kernel

/-- `((a))^2 b`: the same search three times, the scores changing every time. -/
theorem c83_scores_drift :
    searchesObj ratX expand0 explIx 6 (NQ.make ratX [] (.bool 1 [(.should, .bool 2 [(.must, .bool 1 [(.must, .leaf (.term 0) 1)])]),
      (.should, .leaf (.term 1) 1)])).1 [4, 4, 4] =
    .ok [[(0, 1 / 20), (1, 11 / 8), (3, 29 / 10)], [(0, 1 / 13), (1, 14 / 13), (3, 49 / 13)],
      [(0, 2 / 25), (1, 29 / 50), (3, 89 / 25)]] := by
  decide +kernel

/-- **C83, shared clauses.** One query used in two boolean queries of one clause: both boosts are put on it, and both uses
have the product. `a^2 a^3` with one object `a` asks for `a^6 a^6`. -/
theorem c83_shared (X : XArith S) (hX : Exact X) (expand : L → S → Kind L × S) (k : Kind L) (b b' t : S) (hb : b ≠ X.one)
    (hb' : b' ≠ X.one) :
    ∃ h', weigh X expand 4 4 [.leaf k t, .bool b X.zero [(.must, 0)], .bool b' X.zero [(.must, 0)], .bool X.one X.zero [(.should, 1), (.should, 2)]] 3 =
      .ok (h', .bool X.one [(.should, .leaf k (X.mul (X.mul t b) b')), (.should, .leaf k (X.mul (X.mul t b) b'))]) := by
  have h2 : X.isOne b = false := by
    cases h : X.isOne b with
    | false => rfl
    | true => exact absurd ((hX.isOne _).1 h) hb
  have h3 : X.isOne b' = false := by
    cases h : X.isOne b' with
    | false => rfl
    | true => exact absurd ((hX.isOne _).1 h) hb'
  refine ⟨[.leaf k (X.mul (X.mul t b) b'), .bool b t [(.must, 0)], .bool b' (X.mul t b) [(.must, 0)],
    .bool X.one X.zero [(.should, 1), (.should, 2)], .bool X.one X.zero [(.should, 0), (.should, 0)]], ?_⟩
  have e1 : rewriteQ X expand 3 [.leaf k t, .bool b X.zero [(.must, 0)], .bool b' X.zero [(.must, 0)],
      .bool X.one X.zero [(.should, 1), (.should, 2)]] 1 = .ok ([.leaf k (X.mul t b), .bool b t [(.must, 0)],
      .bool b' X.zero [(.must, 0)], .bool X.one X.zero [(.should, 1), (.should, 2)]], 0) := by
    simp [rewriteQ, rewriteOne, single, h2, Res.ok_bind, QObj.boost, QObj.withBoost]
  have e2 : rewriteQ X expand 3 [.leaf k (X.mul t b), .bool b t [(.must, 0)],
      .bool b' X.zero [(.must, 0)], .bool X.one X.zero [(.should, 1), (.should, 2)]] 2 =
      .ok ([.leaf k (X.mul (X.mul t b) b'), .bool b t [(.must, 0)], .bool b' (X.mul t b) [(.must, 0)],
        .bool X.one X.zero [(.should, 1), (.should, 2)]], 0) := by
    simp [rewriteQ, rewriteOne, single, h3, Res.ok_bind, QObj.boost, QObj.withBoost]
  have hT : Tree [.leaf k (X.mul (X.mul t b) b'), .bool b t [(.must, 0)], .bool b' (X.mul t b) [(.must, 0)],
      .bool X.one X.zero [(.should, 1), (.should, 2)], .bool X.one X.zero [(.should, 0), (.should, 0)]]
      (.bool X.one [(.should, .leaf k (X.mul (X.mul t b) b')), (.should, .leaf k (X.mul (X.mul t b) b'))]) 4 [4, 0, 0] :=
    .bool (ob := X.zero) (js := [(.should, 0), (.should, 0)]) (G := [0, 0]) rfl
      (.cons (G := [0]) (G' := [0]) (.leaf rfl) (.cons (G := [0]) (G' := []) (.leaf rfl) .nil)) (by simp)
  have hs : settled (EQuery.bool X.one [(Occur.should, EQuery.leaf k (X.mul (X.mul t b) b')), (.should, .leaf k (X.mul (X.mul t b) b'))]) = true := by
    simp [settled, settledL, single]
  have hw := weigh_tree X expand 4 4 _ _ 4 _ (by simp [eheight, eheightL]) (Nat.le_refl _) hT hs
  rw [weigh, iseaRewrite_tree X expand (by simp [eheight, eheightL]) hT hs, Res.ok_bind] at hw
  have hr : rewriteQ X expand 4 [.leaf k t, .bool b X.zero [(.must, 0)], .bool b' X.zero [(.must, 0)],
      .bool X.one X.zero [(.should, 1), (.should, 2)]] 3 = .ok ([.leaf k (X.mul (X.mul t b) b'), .bool b t [(.must, 0)],
      .bool b' (X.mul t b) [(.must, 0)], .bool X.one X.zero [(.should, 1), (.should, 2)],
      .bool X.one X.zero [(.should, 0), (.should, 0)]], 4) := by
    rw [rewriteQ]
    simp only [List.getElem?_cons_succ, List.getElem?_cons_zero, single]
    rw [rewriteEach, e1, Res.ok_bind]
    simp only []
    rw [rewriteEach, e2, Res.ok_bind]
    simp [rewriteEach, rewriteMany, copyIf, Res.ok_bind]
  rw [weigh, iseaRewrite, hr, Res.ok_bind]
  simp only []
  rw [if_neg (by decide), iseaRewrite_tree X expand (by simp [eheight, eheightL]) hT hs, Res.ok_bind]
  exact hw
example : (2 : Rat) ≠ ratX.one ∧ (3 : Rat) ≠ ratX.one := by decide +kernel

/-- **C83, queries that only prohibit.** After a search with `-a` the query is `-a +*`; a clause added to it then no longer
restricts the search, as one added before does. -/
theorem c83_prohibited_grows :
    (addClause 1 .should 2 [QObj.leaf (.term 0) 1, .bool 1 0 [(.mustNot, 0)], .leaf (.term 1) (1 : Rat)] >>= fun h =>
      searchObj ratX expand0 explIx 6 h 1 >>= fun r => .ok r.2) = .ok [] ∧
    (searchObj ratX expand0 explIx 6 [QObj.leaf (.term 0) 1, .bool 1 0 [(.mustNot, 0)], .leaf (.term 1) (1 : Rat)] 1 >>= fun r =>
      addClause 1 .should 2 r.1 >>= fun h => searchObj ratX expand0 explIx 6 h 1 >>= fun r' => .ok (r'.2.map (·.1))) = .ok [4] := by
  decide +kernel

/-- **C83, the boosts a user sees.** A search leaves its boost on the clause of a boolean query of one clause, where the
user (and `to_s`) sees it. -/
theorem c83_boost_shown (X : XArith S) (hX : Exact X) (expand : L → S → Kind L × S) (k : Kind L) (b t : S) (hb : b ≠ X.one) :
    ∃ h', weigh X expand 3 3 [.leaf k t, .bool b X.zero [(.must, 0)]] 1 = .ok (h', .leaf k (X.mul t b)) ∧
      h'[0]?.map QObj.boost = some (X.mul t b) := by
  have h2 : X.isOne b = false := by
    cases h : X.isOne b with
    | false => rfl
    | true => exact absurd ((hX.isOne _).1 h) hb
  refine ⟨[.leaf k (X.mul t b), .bool b t [(.must, 0)]], ?_, rfl⟩
  simp [weigh, iseaRewrite, rewriteQ, rewriteOne, single, h2, Res.ok_bind, QObj.boost, QObj.withBoost]
example : (2 : Rat) ≠ ratX.one := by decide +kernel

#print axioms c83_repeated_partial
#print axioms c83_boost_grows
#print axioms c83_scores_drift
#print axioms c83_shared
#print axioms c83_prohibited_grows
#print axioms c83_boost_shown
end Ferret.Props
