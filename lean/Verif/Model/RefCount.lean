import Verif.Model.Basic
import Verif.Spec.BoolQuery

/-!
Who owns queries: reference counts of queries, clauses, filters and weights. c/include/global.h 62–63 (REF, DEREF); c/src/search.c 252–274 (w_destroy,
w_create), 314–319 (q_rewrite), 335–366 (q_destroy_i, q_deref, q_weight), 443–459 (q_create), 1217–1229 (isea_rewrite); c/src/q_boolean.c 1168–1177
(bw_destroy), 1241–1263 (bw_new), 1294–1299 (bc_deref), 1312–1318 (bc_new), 1339–1407 (bq_rewrite), 1484–1513 (bq_destroy, bq_get_similarity), 1545–1624
(bq_new, bq_new_max, bq_add_clause_nr, bq_add_clause, bq_add_query_nr, bq_add_query); c/src/q_span.c 1743–1759 (spanfq_rewrite, spanfq_destroy_i), 1776–1803
(spanfq_new_nr, spanfq_new), 1874–1902 (spanoq_rewrite, spanoq_destroy_i), 1938–1987 (spanoq_new, spanoq_add_clause), 2059–2085, 2125–2177 (the same for near), 2208–2236 (spanxq_rewrite, spanxq_destroy),
2331–2355 (spanprq_rewrite); c/src/q_filtered_query.c 134–190 (fqw_destroy, fqw_new, fq_destroy), 192–213 (fq_new_weight, fq_new); c/src/filter.c 13–22 (filt_destroy_i, filt_deref), 133–157
(qfilt_destroy_i, qfilt_new_nr, qfilt_new); c/src/q_const_score.c 128–131 (csq_destroy), 144–162 (csq_new_nr, csq_new); c/src/q_range.c 499–509, 641–651 (rq_rewrite, trq_rewrite).

Memory is a list of objects; addresses are positions in it and are not used again. An object with count 0 is freed: to read it or to write to it is undefined.

Simplifications.
* Of an object there is its kind, its count and which objects it owns: `kids` (the clauses of a boolean query, the query of a clause, the clauses of a span query, the query of a
  filtered query, of a query filter, the weights and the query of a weight) and `aux` (the similarity of a boolean query, the filter of a filtered or constant query).
* Weights and similarities, which are freed by their only owner, are objects with count 1.
* `rank` is in no struct: it says how deep queries may be nested, is chosen when a query is made and is read by no function. A query can be put into one of higher rank only, so that
  no query contains itself.
* An object is marked as freed before what it owns is given up, not after. What it owns is given up in the order of `kids` and then `aux`.
* A span query takes the rewritten clause before it gives up the old one, not after.
* Patterns (prefix, wildcard, fuzzy, span prefix) rewrite to a new query that owns nothing; what it asks for is in Expand.lean. Ranges rewrite to a new constant query with a new filter.
* A weight is made after the weights of its clauses; w_create has its reference to the query from before.
* The span queries (first, or, near, not) are one kind: all rewrite their clauses in place. The check of fields is not here (C69).
* Only searchers with one reader. Scorers own no queries and are not here.
-/

namespace Ferret.Rc
open Ferret
open Ferret.Spec (Occur)

/-- Positions in memory. -/
local notation "Ref" => Nat

inductive Kind where
  /-- Rewrites to itself and owns nothing: term, multi-term, phrase, match all, span term. -/
  | leaf
  /-- Rewrites to a new leaf: prefix, wildcard, fuzzy, span prefix. -/
  | pattern
  /-- RangeQuery, TypedRangeQuery. -/
  | range
  | constScore
  | filtered
  /-- SpanFirstQuery, SpanOrQuery, SpanNearQuery, SpanNotQuery. -/
  | span
  /-- BooleanQuery: coord_disabled, max_clause_cnt. -/
  | bool (off : Bool) (max : Nat)
  | clause (occur : Occur)
  | filter
  | similarity
  | weight
  deriving DecidableEq

/-- An object: c/include/search.h, ref_cnt and owned pointers of Query, BooleanQuery, BooleanClause, Filter, Weight. -/
structure Obj where
  kind : Kind
  cnt : Nat
  kids : List Ref
  aux : Option Ref
  rank : Nat

/-- All that an object owns. -/
def Obj.refs (o : Obj) : List Ref := o.kids ++ o.aux.toList

abbrev Heap := List Obj

/-- What can happen. `long` is that the bound on recursion was reached. -/
inductive Out (α : Type) where
  | ok (a : α) (h : Heap)
  | raised (h : Heap)
  | ub
  | long

/-- Code that works on memory. -/
def M (α : Type) := Heap → Out α

def M.bind {α β : Type} (x : M α) (f : α → M β) : M β := fun h =>
  match x h with
  | .ok a h => f a h
  | .raised h => .raised h
  | .ub => .ub
  | .long => .long

instance : Monad M where
  pure a := fun h => .ok a h
  bind := M.bind

/-- Reading an object that is not there, or not any more, is undefined. -/
def get (r : Ref) : M Obj := fun h =>
  match h[r]? with
  | some o => if o.cnt = 0 then .ub else .ok o h
  | none => .ub

def put (r : Ref) (o : Obj) : M Unit := fun h => .ok () (h.set r o)

/-- ALLOC: q_create, search.c 443–459; bc_new, q_boolean.c 1312–1318; w_create, search.c 258–274. -/
def alloc (o : Obj) : M Ref := fun h => .ok h.length (h ++ [o])

def raise {α : Type} : M α := fun h => .raised h

def undefined {α : Type} : M α := fun _ => .ub

/-- REF, global.h 62. -/
def ref (r : Ref) : M Unit := do
  let o ← get r
  put r { o with cnt := o.cnt + 1 }

/-- DEREF, global.h 63: it never frees. -/
def unref (r : Ref) : M Unit := do
  let o ← get r
  put r { o with cnt := o.cnt - 1 }

def refAll : List Ref → M Unit
  | [] => pure ()
  | r :: rs => do
    ref r
    refAll rs

/-- q_deref, search.c 340–344, bc_deref, q_boolean.c 1294–1299, filt_deref, filter.c 18–22, and the destroy functions they call: a list of references that are given up. -/
def drop : Nat → List Ref → M Unit
  | _, [] => pure ()
  | 0, _ => fun _ => .long
  | n + 1, r :: work => do
    let o ← get r
    if o.cnt = 1 then do
      put r { o with cnt := 0, kids := [], aux := none }
      drop n (o.refs ++ work)
    else do
      put r { o with cnt := o.cnt - 1 }
      drop n work

/-- Every step takes one reference, so that one more step than there are references is enough. -/
def release (work : List Ref) : M Unit := fun h => drop ((h.map Obj.cnt).sum + 1) work h

def ofOption {α : Type} : Option α → M α
  | some a => pure a
  | none => undefined

/-- The occurrence and the query of a clause. -/
def asClause (o : Obj) : M (Occur × Ref) :=
  match o.kind, o.kids with
  | .clause oc, [q] => pure (oc, q)
  | _, _ => undefined

def setKid (r : Ref) (i : Nat) (k : Ref) : M Unit := do
  let o ← get r
  put r { o with kids := o.kids.set i k }

/-- q_boolean.c 1379–1393: a copy of the query with the same clauses; the pointer to the similarity is copied. (The clauses are counted before the copy is made.) -/
def copyBool (self : Ref) : M Ref := do
  let o ← get self
  refAll o.kids
  let new ← alloc { o with cnt := 1 }
  unref self
  pure new

/-- q_boolean.c 1378–1394: the query that takes rewritten clauses. -/
def target (self : Ref) (rewritten : Bool) : M Ref := if rewritten then pure self else copyBool self

/-- One turn of the loop of bq_rewrite, q_boolean.c 1372–1400. Gives the query, whether it is a copy, and whether the clause prohibits. -/
def bqStep (rw : Ref → M Ref) (self : Ref) (rewritten : Bool) (i : Nat) : M (Ref × Bool × Bool) := do
  let o ← get self
  let c ← ofOption o.kids[i]?
  let co ← get c
  let oq ← asClause co
  let rq ← rw oq.2
  if rq ≠ oq.2 then do
    let self' ← target self rewritten
    unref c
    let nc ← alloc ⟨.clause oq.1, 1, [rq], none, co.rank⟩
    setKid self' i nc
    pure (self', true, oq.1 = .mustNot)
  else do
    unref rq
    pure (self, rewritten, oq.1 = .mustNot)

/-- The loop: `k` clauses are left, `i` is the next; `np` is has_non_prohibited_clause. -/
def bqLoop (rw : Ref → M Ref) : (k i : Nat) → Ref → Bool → Bool → M (Ref × Bool)
  | 0, _, self, _, np => pure (self, np)
  | k + 1, i, self, rewritten, np => do
    let s ← bqStep rw self rewritten i
    bqLoop rw k (i + 1) s.1 s.2.1 (np || !s.2.2)

/-- q_boolean.c 1402–1404, with bq_add_query_nr, 1601–1618. -/
def addMatchAll (self : Ref) : M Unit := do
  let m ← alloc ⟨.leaf, 1, [], none, 0⟩
  let o ← get self
  match o.kind with
  | .bool _ max =>
    if max ≤ o.kids.length then raise
    else do
      let c ← alloc ⟨.clause .must, 1, [m], none, 1⟩
      put self { o with kids := o.kids ++ [c] }
  | _ => undefined

/-- q_boolean.c 1346–1350: the query of the only clause, if it does not prohibit. -/
def lone (kids : List Ref) : M (Option Ref) :=
  match kids with
  | [c] => do
    let co ← get c
    let oq ← asClause co
    pure (if oq.1 = .mustNot then none else some oq.2)
  | _ => pure none

/-- One turn of the loops of spanoq_rewrite, spannq_rewrite, and what spanfq_rewrite and spanxq_rewrite do with each of their queries: q_span.c 1880–1884. -/
def spanStep (rw : Ref → M Ref) (self : Ref) (i : Nat) : M Unit := do
  let o ← get self
  let q ← ofOption o.kids[i]?
  let rq ← rw q
  setKid self i rq
  release [q]

def spanLoop (rw : Ref → M Ref) : (k i : Nat) → Ref → M Unit
  | 0, _, _ => pure ()
  | k + 1, i, self => do
    spanStep rw self i
    spanLoop rw k (i + 1) self

/-- bq_rewrite, q_boolean.c 1339–1408, with the rewriting of clauses. -/
def bqRewrite (rw : Ref → M Ref) (r : Ref) (kids : List Ref) : M Ref := do
  let one ← lone kids
  match one with
  | some q => rw q
  | none => do
    ref r
    let s ← bqLoop rw kids.length 0 r false false
    if kids.length ≠ 0 ∧ s.2 = false then do
      addMatchAll s.1
      pure s.1
    else pure s.1

/-- `query->rewrite(query, ir)`: what is given back is owned by the caller. -/
def rewrite : Nat → Ref → M Ref
  | 0, _ => fun _ => .long
  | n + 1, r => do
    let o ← get r
    match o.kind with
    | .leaf | .constScore | .filtered => do
      ref r
      pure r
    | .pattern => alloc ⟨.leaf, 1, [], none, o.rank⟩
    | .range => do
      let f ← alloc ⟨.filter, 1, [], none, 0⟩
      alloc ⟨.constScore, 1, [], some f, o.rank⟩
    | .span => do
      spanLoop (rewrite n) o.kids.length 0 r
      ref r
      pure r
    | .bool _ _ => bqRewrite (rewrite n) r o.kids
    | _ => undefined

/-- The loop of isea_rewrite, search.c 1222–1227. -/
def iseaLoop : Nat → Ref → Ref → Bool → M Ref
  | 0, _, _, _ => fun _ => .long
  | n + 1, query, rewritten, destroyed =>
    if destroyed || query ≠ rewritten then do
      let again ← rewrite n rewritten
      let o ← get rewritten
      release [rewritten]
      iseaLoop n rewritten again (o.cnt ≤ 1)
    else pure query

/-- isea_rewrite, search.c 1217–1229. -/
def iseaRewrite (n : Nat) (original : Ref) : M Ref := do
  let rewritten ← rewrite n original
  iseaLoop n original rewritten false

/-- get_similarity: bq_get_similarity, q_boolean.c 1503–1513, if coordination is disabled; else it is the similarity of the searcher. -/
def getSimilarity (r : Ref) : M Unit := do
  let o ← get r
  match o.kind with
  | .bool true _ =>
    match o.aux with
    | some s => do
      let _ ← get s
      pure ()
    | none => do
      let s ← alloc ⟨.similarity, 1, [], none, 0⟩
      put r { o with aux := some s }
  | _ => pure ()

/-- The largest rank, for the rank of a weight. -/
def topRank (h : Heap) (rs : List Ref) : Nat := rs.foldr (fun r m => max (match h[r]? with | some o => o.rank | none => 0) m) 0

/-- w_create, search.c 258–274: the weight takes over the weights of clauses and the reference to the query. -/
def newWeight (kids : List Ref) : M Ref := fun h => alloc ⟨.weight, 1, kids, none, topRank h kids + 1⟩ h

/-- The loop of bw_new, q_boolean.c 1248–1250: `k` clauses are left, `i` is the next. -/
def bwLoop (qw : Ref → M Ref) (query : Ref) : (k i : Nat) → List Ref → M (List Ref)
  | 0, _, ws => pure ws
  | k + 1, i, ws => do
    let o ← get query
    let c ← ofOption o.kids[i]?
    let co ← get c
    let oq ← asClause co
    let w ← qw oq.2
    bwLoop qw query k (i + 1) (ws ++ [w])

/-- create_weight_i: bw_new, q_boolean.c 1241–1263, fq_new_weight, q_filtered_query.c 192–197, q_create_weight_unsup, search.c 347–353, and the others, which only keep the query. -/
def createWeight (qw : Ref → M Ref) (query : Ref) : M Ref := do
  let o ← get query
  match o.kind with
  | .leaf | .constScore | .span => do
    ref query
    newWeight [query]
  | .bool _ _ => do
    ref query
    let ws ← bwLoop qw query o.kids.length 0 []
    getSimilarity query
    newWeight (ws ++ [query])
  | .filtered =>
    match o.kids with
    | [q] => do
      let w ← qw q
      ref query
      newWeight [w, query]
    | _ => undefined
  | .pattern | .range => raise
  | _ => undefined

/-- q_weight, search.c 355–366. -/
def qWeight : Nat → Ref → M Ref
  | 0, _ => fun _ => .long
  | n + 1, self => do
    let query ← iseaRewrite n self
    let weight ← createWeight (qWeight n) query
    getSimilarity query
    release [query]
    let _ ← get self
    pure weight

/-! ### Programs that use queries -/

/-- What a program does. -/
inductive Op where
  | leaf
  | pattern
  | range
  /-- rfilt_new -/
  | filter
  /-- qfilt_new -/
  | queryFilter (q : Ref) (rank : Nat)
  /-- csq_new -/
  | constScore (f : Ref) (rank : Nat)
  /-- fq_new, which takes over both. -/
  | filtered (q f : Ref) (rank : Nat)
  /-- spanoq_new, spannq_new -/
  | span (rank : Nat)
  /-- spanoq_add_clause, spannq_add_clause -/
  | spanAdd (s q : Ref)
  /-- bq_new, bq_new_max -/
  | bool (off : Bool) (max rank : Nat)
  /-- bq_add_query -/
  | add (b q : Ref) (occur : Occur)
  /-- bq_add_query_nr, which takes over the query. -/
  | addNr (b q : Ref) (occur : Occur)
  | ref (r : Ref)
  /-- q_deref, filt_deref, and `weight->destroy`. -/
  | deref (r : Ref)
  /-- q_weight: a search begins. It ends with the weight. -/
  | weigh (q : Ref)

/-- A program with the references it holds, once for every time, and whether an exception was raised. -/
structure Prog where
  heap : Heap
  held : List Ref
  failed : Bool

def Kind.isQuery : Kind → Bool
  | .leaf | .pattern | .range | .constScore | .filtered | .span | .bool _ _ => true
  | _ => false

def rankOf (h : Heap) (r : Ref) : Nat := match h[r]? with | some o => o.rank | none => 0
def kindOf (h : Heap) (r : Ref) : Option Kind := (h[r]?).map Obj.kind
def isQuery (h : Heap) (r : Ref) : Bool := match kindOf h r with | some k => k.isQuery | none => false
def isBool (h : Heap) (r : Ref) : Bool := match kindOf h r with | some (.bool _ _) => true | _ => false

/-- What programs may do: with what they hold, of the right type, and without putting a query into itself. -/
def Prog.may (p : Prog) : Op → Bool
  | .leaf | .pattern | .range | .filter | .span _ | .bool _ _ _ => true
  | .queryFilter q rank => decide (q ∈ p.held) && isQuery p.heap q && decide (rankOf p.heap q < rank)
  | .constScore f rank => decide (f ∈ p.held) && decide (kindOf p.heap f = some .filter) && decide (rankOf p.heap f < rank)
  | .filtered q f rank => decide (q ∈ p.held) && isQuery p.heap q && decide (rankOf p.heap q < rank) && decide (f ∈ p.held) && decide (kindOf p.heap f = some .filter) &&
      decide (rankOf p.heap f < rank)
  | .spanAdd s q => decide (s ∈ p.held) && decide (kindOf p.heap s = some .span) && decide (q ∈ p.held) && isQuery p.heap q && decide (rankOf p.heap q < rankOf p.heap s)
  | .add b q _ | .addNr b q _ => decide (b ∈ p.held) && isBool p.heap b && decide (q ∈ p.held) && isQuery p.heap q && decide (rankOf p.heap q + 1 < rankOf p.heap b)
  | .ref r => decide (r ∈ p.held) && decide (kindOf p.heap r ≠ some .weight)
  | .deref r => decide (r ∈ p.held)
  | .weigh q => decide (q ∈ p.held) && isQuery p.heap q

/-- bq_add_query_nr, q_boolean.c 1601–1618. -/
def addQueryNr (b q : Ref) (occur : Occur) : M Unit := do
  let o ← get b
  match o.kind with
  | .bool _ max =>
    if max ≤ o.kids.length then raise
    else do
      let qo ← get q
      let c ← alloc ⟨.clause occur, 1, [q], none, qo.rank + 1⟩
      put b { o with kids := o.kids ++ [c] }
  | _ => undefined

/-- bq_add_query, q_boolean.c 1620–1624. -/
def addQuery (b q : Ref) (occur : Occur) : M Unit := do
  ref q
  addQueryNr b q occur

/-- spanoq_add_clause, q_span.c 1960–1987. -/
def spanAdd (s q : Ref) : M Unit := do
  ref q
  let o ← get s
  put s { o with kids := o.kids ++ [q] }

/-- What an operation does, and which references are held afterwards. `n` bounds the recursion of rewriting and weighing. -/
def Prog.act (n : Nat) (held : List Ref) : Op → M (List Ref)
  | .leaf => do return (← alloc ⟨.leaf, 1, [], none, 0⟩) :: held
  | .pattern => do return (← alloc ⟨.pattern, 1, [], none, 0⟩) :: held
  | .range => do return (← alloc ⟨.range, 1, [], none, 1⟩) :: held
  | .filter => do return (← alloc ⟨.filter, 1, [], none, 0⟩) :: held
  | .queryFilter q rank => do
    ref q
    return (← alloc ⟨.filter, 1, [q], none, rank⟩) :: held
  | .constScore f rank => do
    ref f
    return (← alloc ⟨.constScore, 1, [], some f, rank⟩) :: held
  | .filtered q f rank => do return (← alloc ⟨.filtered, 1, [q], some f, rank⟩) :: (held.erase q).erase f
  | .span rank => do return (← alloc ⟨.span, 1, [], none, rank⟩) :: held
  | .spanAdd s q => do
    spanAdd s q
    return held
  | .bool off max rank => do return (← alloc ⟨.bool off max, 1, [], none, rank + 1⟩) :: held
  | .add b q occur => do
    addQuery b q occur
    return held
  | .addNr b q occur => do
    addQueryNr b q occur
    return held.erase q
  | .ref r => do
    ref r
    return r :: held
  | .deref r => do
    release [r]
    return held.erase r
  | .weigh q => do return (← qWeight n q) :: held

/-- One operation. Those that a program may not do are not done. -/
def Prog.step (n : Nat) (p : Prog) (op : Op) : Option (Option Prog) :=
  if p.may op then
    match Prog.act n p.held op p.heap with
    | .ok held h => some (some ⟨h, held, p.failed⟩)
    | .raised h => some (some ⟨h, p.held, true⟩)
    | .ub => none
    | .long => some none
  else some (some p)

/-- Some operations: `none` if the behaviour is undefined, `some none` if the bound on recursion was reached. -/
def Prog.run (n : Nat) : Prog → List Op → Option (Option Prog)
  | p, [] => some (some p)
  | p, op :: ops =>
    match p.step n op with
    | none => none
    | some none => some none
    | some (some p) => Prog.run n p ops

def Prog.start : Prog := ⟨[], [], false⟩

end Ferret.Rc
