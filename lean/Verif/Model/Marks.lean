import Verif.Spec.Marks
import Verif.Model.MatchVector
import Verif.Model.PriorityQueue

/-!
What highlighting marks: the `get_matchv_i` functions of the queries about words, c/src/q_term.c:303-317,
c/src/q_multi_term.c:603-622, c/src/q_range.c:465-496 and 558-638, c/src/q_phrase.c:718-946, c/src/q_boolean.c:1326-1337
and c/src/search.c:435-440, with the search for a term in a term vector, c/src/term_vectors.c:27-73.

Simplifications.
* A term vector is its field and its terms with their positions: `freq` is the number of positions (C19). It has
  positions (c/src/search.c:635 and 853 look whether it has).
* Positions, offsets and slops are unbounded integers. The field `index` of a `TVPosEnum` is one less than `seen` here.
* `qsort` of the phrase positions is any function `qs`. That the positions of the query stay sorted afterwards is not
  modelled: it is the same phrase.
* `sscanf` is a function `scan` as in C43: an empty bound of a typed range is not a number here.
* Fuel of loops is enough, or the outcome is `.ub`. What is allocated is freed: this is not modelled.
-/

namespace Ferret.Marks

open Ferret.Spec (MQ MClauses PhrasePart)
open Ferret.Expand (Term Range Scan strcmp typedBounds typedCond)
open Ferret.MV (MV mvAdd)

variable {F : Type} [DecidableEq F]

/-- `TermVector` and `TVTerm`, c/include/index.h:544-566. -/
structure TV (F : Type) where
  field : F
  terms : List (Term × List Int)

/-- The loop of `tv_scan_to_term_index`, c/src/term_vectors.c:35-49. -/
def scanLoop (terms : List (Term × List Int)) (t : Term) : Nat → Nat → Int → Res Nat
  | 0, _, _ => .ub
  | fuel + 1, lo, hi =>
    if hi ≥ lo then
      let mid := (((lo : Int) + hi) / 2).toNat
      Res.ofOption terms[mid]? >>= fun x =>
      if strcmp t x.1 < 0 then scanLoop terms t fuel lo ((mid : Int) - 1)
      else if strcmp t x.1 > 0 then scanLoop terms t fuel (mid + 1) hi
      else .ok mid
    else .ok lo

/-- `tv_scan_to_term_index`, c/src/term_vectors.c:27-50. -/
def scanTo (terms : List (Term × List Int)) (t : Term) : Res Nat := scanLoop terms t (terms.length + 1) 0 ((terms.length : Int) - 1)

/-- `tv_get_term_index` and `tv_get_tv_term`, c/src/term_vectors.c:52-73: the positions of the term. -/
def getTerm (terms : List (Term × List Int)) (t : Term) : Res (Option (List Int)) :=
  scanTo terms t >>= fun i =>
  match terms[i]? with
  | some x => if strcmp t x.1 = 0 then .ok (some x.2) else .ok none
  | none => .ok none

/-- The loops that add the positions of a term, c/src/q_term.c:310-313 and the same elsewhere. -/
def addAll (mv : MV) (ps : List Int) : MV := ps.foldl (fun m p => mvAdd m p p) mv

/-- `tq_get_matchv_i` for the field of the vector, c/src/q_term.c:307-314. -/
def termMatch (terms : List (Term × List Int)) (t : Term) (mv : MV) : Res MV :=
  getTerm terms t >>= fun o => .ok (match o with
    | some ps => addAll mv ps
    | none => mv)

/-- `multi_tq_get_matchv_i`, c/src/q_multi_term.c:607-619, over the slots of the queue from the last on. -/
def multiMatch (terms : List (Term × List Int)) : List Term → MV → Res MV
  | [], mv => .ok mv
  | t :: ts, mv => termMatch terms t mv >>= fun mv => multiMatch terms ts mv

/-- The condition c/src/q_range.c:486. -/
def pastUpper (upper : Option Term) (limit : Int) (t : Term) : Bool :=
  match upper with
  | some u => decide (strcmp t u ≥ limit)
  | none => false

/-- The loop of `rq_get_matchv_i`, c/src/q_range.c:482-493, over the terms from the `i`th on. -/
def rangeGo (upper : Option Term) (limit : Int) : List (Term × List Int) → MV → MV
  | [], mv => mv
  | x :: rest, mv =>
    if pastUpper upper limit x.1 then mv
    else rangeGo upper limit rest (addAll mv x.2)

/-- c/src/q_range.c:476-480. -/
def rangeStart (terms : List (Term × List Int)) (r : Range) : Res Nat :=
  match r.lower with
  | none => .ok 0
  | some l => scanTo terms l >>= fun i =>
    match terms[i]? with
    | some x => if r.includeLower = false ∧ strcmp l x.1 = 0 then .ok (i + 1) else .ok i
    | none => .ok i

/-- `rq_get_matchv_i`, c/src/q_range.c:470-493. -/
def rangeMatch (terms : List (Term × List Int)) (r : Range) (mv : MV) : Res MV :=
  rangeStart terms r >>= fun i => .ok (rangeGo r.upper (if r.includeUpper then 1 else 0) (terms.drop i) mv)

/-- `SET_TERMS`, c/src/q_range.c:558-573, over the terms from the last on. `len` keeps its value when nothing is scanned;
`num` is declared in the loop and has no value then (`none`). -/
def numGo (scan : Scan) (cond : Int → Bool) : Nat → List (Term × List Int) → MV → Res MV
  | _, [], mv => .ok mv
  | len, x :: rest, mv =>
    match scan x.1 with
    | some (v, n) => numGo scan cond n rest (if x.1.length = n ∧ cond v = true then addAll mv x.2 else mv)
    | none => if x.1.length = len then .ub else numGo scan cond len rest mv

/-- `trq_get_matchv_i`, c/src/q_range.c:580-636. Without bounds the assertion fails (629). -/
def numMatch (scan : Scan) (terms : List (Term × List Int)) (r : Range) (mv : MV) : Res MV :=
  match typedBounds scan r with
  | none => rangeMatch terms r mv
  | some (l, u, len) => if r.lower.isNone ∧ r.upper.isNone then .ub else numGo scan (typedCond r l u) len terms.reverse mv

/-! ### Phrases -/

/-- `TVPosEnum`, c/src/q_phrase.c:719-726; `seen` is `index + 1`, `size` the number of positions. -/
structure Tvpe where
  seen : Nat
  offset : Int
  pos : Int
  positions : List Int
  deriving DecidableEq

/-- `tvpe_new`, c/src/q_phrase.c:763-772. -/
def tvpeNew (ps : List Int) (offset : Int) : Tvpe := ⟨0, offset, -1, ps⟩

/-- `tvpe_next`, c/src/q_phrase.c:728-738. -/
def tvpeNext (t : Tvpe) : Bool × Tvpe :=
  match t.positions[t.seen]? with
  | some p => (true, { t with seen := t.seen + 1, pos := p - t.offset })
  | none => (false, { t with seen := t.seen + 1, pos := -1 })

/-- The loop of `tvpe_skip_to`, c/src/q_phrase.c:744-749: the positions left, from index `i` on. -/
def skipGo (target : Int) : List Int → Nat → Option (Nat × Int)
  | [], _ => none
  | p :: ps, i => if p ≥ target then some (i, p) else skipGo target ps (i + 1)

/-- `tvpe_skip_to`, c/src/q_phrase.c:740-756. -/
def tvpeSkipTo (t : Tvpe) (position : Int) : Bool × Tvpe :=
  match skipGo (position + t.offset) (t.positions.drop t.seen) t.seen with
  | some (i, p) => (true, { t with seen := i + 1, pos := p - t.offset })
  | none => (false, { t with seen := t.positions.length + 1, pos := -1 })

/-- `tvpe_lt`, c/src/q_phrase.c:758-761. -/
def tvpeLt (a b : Tvpe) : Bool := decide (a.pos < b.pos)

/-- The first loop of `tvpe_new_merge`, c/src/q_phrase.c:781-791: the queue and `total_positions`. -/
def mergePush (tv : List (Term × List Int)) : List Term → PQ.PQ Tvpe → Nat → Res (PQ.PQ Tvpe × Nat)
  | [], q, total => .ok (q, total)
  | t :: ts, q, total => getTerm tv t >>= fun o =>
    match o with
    | none => mergePush tv ts q total
    | some ps =>
      let r := tvpeNext (tvpeNew ps 0)
      if r.1 = false then .ub
      else PQ.push tvpeLt q r.2 >>= fun q => mergePush tv ts q (total + ps.length)

/-- The second loop of `tvpe_new_merge`, c/src/q_phrase.c:803-813: the positions written; there is room for `total`. -/
def mergeGo (total : Nat) : Nat → PQ.PQ Tvpe → List Int → Res (List Int)
  | 0, _, _ => .ub
  | fuel + 1, q, out =>
    match q.heap with
    | [] => .ok out
    | top :: rest =>
      if out.length ≥ total then .ub
      else
        let r := tvpeNext top
        if r.1 = false then PQ.pop tvpeLt q >>= fun x => mergeGo total fuel x.2 (out ++ [top.pos])
        else PQ.down tvpeLt (r.2 :: rest) >>= fun h => mergeGo total fuel { q with heap := h } (out ++ [top.pos])

/-- `tvpe_new_merge`, c/src/q_phrase.c:774-817. -/
def tvpeNewMerge (tv : List (Term × List Int)) (terms : List Term) (offset : Int) : Res (Option Tvpe) :=
  mergePush tv terms (PQ.new terms.length) 0 >>= fun r =>
  if r.1.heap = [] then .ok none
  else mergeGo r.2 (r.2 + 1) r.1 [] >>= fun ps => .ok (some (tvpeNew ps offset))

/-- `get_tvpe`, c/src/q_phrase.c:819-832. -/
def getTvpe (tv : List (Term × List Int)) (x : PhrasePart Term) : Res (Option Tvpe) :=
  match x.terms with
  | [t] => getTerm tv t >>= fun o => .ok (o.map fun ps => tvpeNew ps x.offset)
  | ts => tvpeNewMerge tv ts x.offset

/-- The loop c/src/q_phrase.c:846-861; `none`: `done` is set. -/
def sloppyInit (tv : List (Term × List Int)) : List (PhrasePart Term) → PQ.PQ Tvpe → Int → Res (Option (PQ.PQ Tvpe × Int))
  | [], q, last => .ok (some (q, last))
  | x :: xs, q, last => getTvpe tv x >>= fun o =>
    match o with
    | none => .ok none
    | some t =>
      let r := tvpeNext t
      if r.1 = false then .ok none
      else PQ.push tvpeLt q r.2 >>= fun q => sloppyInit tv xs q (if r.2.pos > last then r.2.pos else last)

/-- The loop c/src/q_phrase.c:867-874: `start`, the enumerator and `done`. -/
def advanceGo (next : Int) : Nat → Tvpe → Int → Int → Res (Int × Tvpe × Bool)
  | 0, _, _, _ => .ub
  | fuel + 1, t, pos, start =>
    if pos ≤ next then
      let r := tvpeNext t
      if r.1 = false then .ok (pos, r.2, true) else advanceGo next fuel r.2 r.2.pos pos
    else .ok (start, t, false)

/-- The loop c/src/q_phrase.c:877-883 over the slots of the queue from the last on: `min` and `max`. -/
def spread (p : Int) (h : List Tvpe) : Int × Int :=
  h.reverse.foldl (fun m t => (if t.pos + t.offset < m.1 then t.pos + t.offset else m.1, if t.pos + t.offset > m.2 then t.pos + t.offset else m.2)) (p, p)

/-- The loop c/src/q_phrase.c:862-890. -/
def sloppyGo (slop : Int) : Nat → PQ.PQ Tvpe → Int → MV → Res MV
  | 0, _, _, _ => .ub
  | fuel + 1, q, last, mv =>
    PQ.pop tvpeLt q >>= fun x =>
    Res.ofOption x.1 >>= fun t =>
    Res.ofOption (PQ.top x.2) >>= fun nxt =>
    advanceGo nxt.pos (t.positions.length + 1) t t.pos t.pos >>= fun r =>
    let mv := if last - r.1 ≤ slop then
        let m := spread (r.1 + r.2.1.offset) x.2.heap
        mvAdd mv m.1 m.2
      else mv
    let last := if r.2.1.pos > last then r.2.1.pos else last
    PQ.push tvpeLt x.2 r.2.1 >>= fun q => if r.2.2 = true then .ok mv else sloppyGo slop fuel q last mv

/-- The positions that are left to the enumerators: fuel. -/
def left (h : List Tvpe) : Nat := (h.map fun t => t.positions.length + 1 - t.seen).sum

/-- c/src/q_phrase.c:844-892. -/
def sloppyMatch (tv : List (Term × List Int)) (parts : List (PhrasePart Term)) (slop : Int) (mv : MV) : Res MV :=
  sloppyInit tv parts (PQ.new parts.length) 0 >>= fun o =>
  match o with
  | none => .ok mv
  | some (q, last) => sloppyGo slop (left q.heap + 1) q last mv

/-- The loop c/src/q_phrase.c:901-914: `tvpe_a` so far in `acc`; `none`: `done` is set. -/
def exactInit (tv : List (Term × List Int)) : List (PhrasePart Term) → List Tvpe → Res (Option (List Tvpe))
  | [], acc => .ok (some acc)
  | x :: xs, acc => getTvpe tv x >>= fun o =>
    match o with
    | none => .ok none
    | some t =>
      match acc.getLast? with
      | none =>
        let r := tvpeNext t
        if r.1 = true then exactInit tv xs (acc ++ [r.2]) else .ub
      | some prev =>
        let r := tvpeSkipTo t prev.pos
        if r.1 = true then exactInit tv xs (acc ++ [r.2]) else .ok none

/-- The loops c/src/q_phrase.c:919-938 as one; `first` and `last` are indices. When the inner loop ends with `done`, the
call of `tvpe_next` (935) changes nothing that is used. -/
def exactGo : Nat → List Tvpe → Nat → Nat → MV → Res MV
  | 0, _, _, _, _ => .ub
  | fuel + 1, a, first, last, mv =>
    Res.ofOption a[first]? >>= fun f =>
    Res.ofOption a[last]? >>= fun l =>
    if f.pos < l.pos then
      let r := tvpeSkipTo f l.pos
      if r.1 = true then exactGo fuel (a.set first r.2) ((first + 1) % a.length) first mv else .ok mv
    else
      Res.ofOption a[0]? >>= fun x =>
      Res.ofOption a[a.length - 1]? >>= fun y =>
      let mv := mvAdd mv (x.pos + x.offset) (y.pos + y.offset)
      let r := tvpeNext l
      if r.1 = true then exactGo fuel (a.set last r.2) first last mv else .ok mv

/-- c/src/q_phrase.c:895-942. Without phrase positions `tvpe_a[-1]` is read (917). -/
def exactMatch (qs : List (PhrasePart Term) → List (PhrasePart Term)) (tv : List (Term × List Int)) (parts : List (PhrasePart Term)) (mv : MV) : Res MV :=
  exactInit tv (qs parts) [] >>= fun o =>
  if parts = [] then .ub
  else match o with
    | none => .ok mv
    | some a => exactGo (left a + 1) a 0 (a.length - 1) mv

/-- `phq_get_matchv_i` for the field of the vector, c/src/q_phrase.c:838-943. -/
def phraseMatch (qs : List (PhrasePart Term) → List (PhrasePart Term)) (tv : List (Term × List Int)) (parts : List (PhrasePart Term)) (slop : Int) (mv : MV) : Res MV :=
  if slop > 0 then sloppyMatch tv parts slop mv else exactMatch qs tv parts mv

mutual
/-- `get_matchv_i` of the queries: c/src/q_term.c:303-317, c/src/q_multi_term.c:603-622, c/src/q_range.c:465-496 and
575-638, c/src/q_phrase.c:834-946, c/src/q_boolean.c:1326-1337, c/src/search.c:435-440. -/
def getMatchv (scan : Scan) (qs : List (PhrasePart Term) → List (PhrasePart Term)) (tv : TV F) : MQ F → MV → Res MV
  | .term f t, mv => if tv.field = f then termMatch tv.terms t mv else .ok mv
  | .anyOf f ts, mv => if tv.field = f then multiMatch tv.terms ts.reverse mv else .ok mv
  | .range f r, mv => if tv.field = f then rangeMatch tv.terms r mv else .ok mv
  | .numRange f r, mv => if tv.field = f then numMatch scan tv.terms r mv else .ok mv
  | .phrase f parts slop, mv => if tv.field = f then phraseMatch qs tv.terms parts slop mv else .ok mv
  | .bool cs, mv => getMatchvs scan qs tv cs mv
  | .other, mv => .ok mv
/-- The loop over the clauses, from the last on, c/src/q_boolean.c:1330-1335. -/
def getMatchvs (scan : Scan) (qs : List (PhrasePart Term) → List (PhrasePart Term)) (tv : TV F) : MClauses F → MV → Res MV
  | .nil, mv => .ok mv
  | .cons p q cs, mv => getMatchvs scan qs tv cs mv >>= fun mv => if p = true then .ok mv else getMatchv scan qs tv q mv
end

end Ferret.Marks
