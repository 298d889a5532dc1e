import Verif.Model.QueryEq

/-!
What a query asks, and what its parts are: what C56 and C66 are stated with.
-/

namespace Ferret.Spec
open Ferret Ferret.QEq

/-- 0.0 and -0.0 are the same number. -/
def number (x : F32) : F32 := if F32.zero x then 0 else x

/-- The query, with no boost. -/
def unboosted : Query → Query
  | .term _ f t => .term ⟨0, 0⟩ f t
  | .multi _ f ts => .multi ⟨0, 0⟩ f ts
  | .bool _ cd mx cs => .bool ⟨0, 0⟩ cd mx cs
  | .phrase _ f ps slop => .phrase ⟨0, 0⟩ f ps slop
  | .const _ f => .const ⟨0, 0⟩ f
  | .filtered _ q f => .filtered ⟨0, 0⟩ q f
  | .all _ => .all ⟨0, 0⟩
  | .range _ t r => .range ⟨0, 0⟩ t r
  | .wild _ f p mx => .wild ⟨0, 0⟩ f p mx
  | .fuzzy _ f t ms pl mx => .fuzzy ⟨0, 0⟩ f t ms pl mx
  | .pfx _ f p mx => .pfx ⟨0, 0⟩ f p mx
  | .sTerm _ f t => .sTerm ⟨0, 0⟩ f t
  | .sMulti _ f ts => .sMulti ⟨0, 0⟩ f ts
  | .sPfx _ f p mx => .sPfx ⟨0, 0⟩ f p mx
  | .sFirst _ f q stop => .sFirst ⟨0, 0⟩ f q stop
  | .sOr _ f cs => .sOr ⟨0, 0⟩ f cs
  | .sNot _ f inc exc => .sNot ⟨0, 0⟩ f inc exc
  | .sNear _ f cs slop io => .sNear ⟨0, 0⟩ f cs slop io

mutual
/-- What a query asks: all of it but where it is in memory, the limits on expanding it and on its clauses, and the boosts
of clauses of span queries, which nothing uses; a positive and a negative zero are the same number. -/
def asks : Query → Query
  | .term h f t => .term ⟨0, number h.boost⟩ f t
  | .multi h f ts => .multi ⟨0, number h.boost⟩ f (ts.map fun t => (t.1, number t.2))
  | .bool h cd _ cs => .bool ⟨0, number h.boost⟩ cd 0 (asksClauses cs)
  | .phrase h f ps slop => .phrase ⟨0, number h.boost⟩ f ps slop
  | .const h f => .const ⟨0, number h.boost⟩ (asksFilter f)
  | .filtered h q f => .filtered ⟨0, number h.boost⟩ (asks q) (asksFilter f)
  | .all h => .all ⟨0, number h.boost⟩
  | .range h t r => .range ⟨0, number h.boost⟩ t r
  | .wild h f p _ => .wild ⟨0, number h.boost⟩ f p 0
  | .fuzzy h f t ms pl _ => .fuzzy ⟨0, number h.boost⟩ f t (number ms) pl 0
  | .pfx h f p _ => .pfx ⟨0, number h.boost⟩ f p 0
  | .sTerm h f t => .sTerm ⟨0, number h.boost⟩ f t
  | .sMulti h f ts => .sMulti ⟨0, number h.boost⟩ f ts
  | .sPfx h f p _ => .sPfx ⟨0, number h.boost⟩ f p 0
  | .sFirst h f q stop => .sFirst ⟨0, number h.boost⟩ f (unboosted (asks q)) stop
  | .sOr h f cs => .sOr ⟨0, number h.boost⟩ f (asksQueries cs)
  | .sNot h f inc exc => .sNot ⟨0, number h.boost⟩ f (unboosted (asks inc)) (unboosted (asks exc))
  | .sNear h f cs slop io => .sNear ⟨0, number h.boost⟩ f (asksQueries cs) slop io
/-- The same, of clauses. -/
def asksClauses : Clauses → Clauses
  | .nil => .nil
  | .cons o q cs => .cons o (asks q) (asksClauses cs)
/-- The same, of clauses of a span query. -/
def asksQueries : Queries → Queries
  | .nil => .nil
  | .cons q cs => .cons (unboosted (asks q)) (asksQueries cs)
/-- The same, of a filter; a filter that is of neither kind is what it is. -/
def asksFilter : Filter → Filter
  | .query _ q => .query 0 (asks q)
  | .range _ t r => .range 0 t r
  | .other a n => .other a n
end

/-- Where queries and filters are: what is at an address. -/
structure Memory where
  query : Nat → Query
  filter : Nat → Filter

mutual
/-- The query and all its parts are in memory where their addresses say; `p` holds for each query in it, `r` for each
clause of a span query in it, `k` for each filter. -/
def Parts (m : Memory) (p r : Query → Prop) (k : Filter → Prop) : Query → Prop
  | .bool h cd mx cs => m.query h.addr = .bool h cd mx cs ∧ p (.bool h cd mx cs) ∧ PartsC m p r k cs
  | .const h f => m.query h.addr = .const h f ∧ p (.const h f) ∧ PartsF m p r k f
  | .filtered h q f => m.query h.addr = .filtered h q f ∧ p (.filtered h q f) ∧ Parts m p r k q ∧ PartsF m p r k f
  | .sFirst h f q stop => m.query h.addr = .sFirst h f q stop ∧ p (.sFirst h f q stop) ∧ r q ∧ Parts m p r k q
  | .sOr h f cs => m.query h.addr = .sOr h f cs ∧ p (.sOr h f cs) ∧ PartsQ m p r k cs
  | .sNot h f inc exc => m.query h.addr = .sNot h f inc exc ∧ p (.sNot h f inc exc) ∧ (r inc ∧ Parts m p r k inc) ∧ r exc ∧ Parts m p r k exc
  | .sNear h f cs slop io => m.query h.addr = .sNear h f cs slop io ∧ p (.sNear h f cs slop io) ∧ PartsQ m p r k cs
  | q => m.query q.hd.addr = q ∧ p q
/-- The same, of clauses. -/
def PartsC (m : Memory) (p r : Query → Prop) (k : Filter → Prop) : Clauses → Prop
  | .nil => True
  | .cons _ q cs => Parts m p r k q ∧ PartsC m p r k cs
/-- The same, of clauses of a span query. -/
def PartsQ (m : Memory) (p r : Query → Prop) (k : Filter → Prop) : Queries → Prop
  | .nil => True
  | .cons q cs => r q ∧ Parts m p r k q ∧ PartsQ m p r k cs
/-- The same, of a filter. -/
def PartsF (m : Memory) (p r : Query → Prop) (k : Filter → Prop) : Filter → Prop
  | .query a q => m.filter a = .query a q ∧ k (.query a q) ∧ Parts m p r k q
  | .range a t r => m.filter a = .range a t r ∧ k (.range a t r)
  | .other a n => m.filter a = .other a n ∧ k (.other a n)
end

/-- A positive zero is the only zero. -/
def NoNegZero (x : F32) : Prop := F32.zero x = true → x = 0

/-- The numbers that hashes are made of are no negative zeros. -/
def PlainNumbers : Query → Prop
  | .multi _ _ ts => ∀ t ∈ ts, NoNegZero t.2
  | .fuzzy _ _ _ ms _ _ => NoNegZero ms
  | _ => True

/-- The first takes the second for one of its own kind, though their hashes are made differently. -/
def orNear : Query → Query → Bool
  | .sOr .., .sNear .. => true
  | .all _, .all _ => false
  | .all _, _ => true
  | _, _ => false

/-- The first takes the second for one of its own kind, though it is not. -/
def misread : Query → Query → Bool
  | .sOr .., .sNear .. => true
  | .sTerm .., .sPfx .. => true
  | .sPfx .., .sTerm .. => true
  | .range _ t _, .range _ t' _ => t != t'
  | .all _, .all _ => false
  | .all _, _ => true
  | _, _ => false

/-- Ranges of the same kind. -/
def sameRange : Filter → Filter → Bool
  | .range _ t _, .range _ t' _ => t == t'
  | _, _ => true

/-- The numbers are numbers. -/
def NumbersOnly : Query → Prop
  | .multi _ _ ts => ∀ t ∈ ts, F32.nan t.2 = false
  | .fuzzy _ _ _ ms _ _ => F32.nan ms = false
  | _ => True

end Ferret.Spec
