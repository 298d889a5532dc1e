import Verif.Model.Basic
import Verif.Model.RamDir

/-!
Comparing and hashing queries: q_hash and q_eq (search.c 422–433), hash and eq of every kind of query (q_term.c,
q_multi_term.c, q_boolean.c, q_phrase.c, q_const_score.c, q_filtered_query.c, q_match_all.c, q_range.c, q_wildcard.c,
q_fuzzy.c, q_prefix.c, q_span.c) and of filters (filter.c 45–81, 122–130; q_range.c 278–286).

A query is a tree; every node has the address of its struct, so that `self == o` can be told. Symbols are interned
(symbol.c), so that comparing their addresses compares their bytes. Floats are their bits. `int`s are integers, converted to
`unsigned long` as C does (sign-extended).

`q1->eq(q1, q2)` in the span queries does not look at the type of `q2`. Casting to another struct is modelled by what the
layouts of search.h 498–608 give: SpanTermQuery and SpanPrefixQuery both continue with a `char *`; SpanOrQuery and
SpanNearQuery both with `clauses`, `c_cnt` and `c_capa`. Every other cast that reads past the fields of SpanQuery is
undefined behaviour here, also where some layouts would give a result. `hash` and `eq` of a FilteredQuery are NULL: fq_new,
q_filtered_query.c 199–212, does not set them.

Not modelled: filters and queries defined in Ruby (r_search.c 2605–2650), which wrap Ruby's own hash and eql?.
-/

namespace Ferret.QEq
open Ferret Ferret.Spec Ferret.RamDir

/-- Bits of a float. -/
abbrev F32 := UInt32

/-- A NaN. -/
def F32.nan (x : F32) : Bool := (x &&& 0x7f800000) == 0x7f800000 && (x &&& 0x007fffff) != 0

/-- 0.0 or -0.0. -/
def F32.zero (x : F32) : Bool := (x &&& 0x7fffffff) == 0

/-- `==` of floats. -/
def F32.eq (x y : F32) : Bool := !F32.nan x && !F32.nan y && (x == y || (F32.zero x && F32.zero y))

/-- float2int, helper.c 14–19, converted to `unsigned long`. -/
def F32.bits (x : F32) : UInt64 := if x &&& 0x80000000 == 0 then x.toUInt64 else x.toUInt64 ||| 0xffffffff00000000

/-- The conversion of an `int` to `unsigned long`. -/
def ofInt (i : Int) : UInt64 := UInt64.ofInt i

/-- What every Query has that matters here: its address and its boost; search.h 217–239. -/
structure Hd where
  addr : Nat
  boost : F32

/-- Range, q_range.c 12–19. -/
structure Range where
  field : List Byte
  lower : Option (List Byte)
  upper : Option (List Byte)
  incLower : Bool
  incUpper : Bool
  deriving DecidableEq

mutual
/-- The queries, search.h 293–608. -/
inductive Query where
  | term (h : Hd) (field term : List Byte)
  /-- `terms` are those of the heap from its last element to its first. -/
  | multi (h : Hd) (field : List Byte) (terms : List (List Byte × F32))
  | bool (h : Hd) (coordDisabled : Bool) (maxClauses : Int) (clauses : Clauses)
  | phrase (h : Hd) (field : List Byte) (positions : List (Int × List (List Byte))) (slop : Int)
  | const (h : Hd) (f : Filter)
  | filtered (h : Hd) (q : Query) (f : Filter)
  | all (h : Hd)
  | range (h : Hd) (typed : Bool) (r : Range)
  | wild (h : Hd) (field pattern : List Byte) (maxTerms : Int)
  | fuzzy (h : Hd) (field term : List Byte) (minSim : F32) (preLen maxTerms : Int)
  | pfx (h : Hd) (field pre : List Byte) (maxTerms : Int)
  | sTerm (h : Hd) (field term : List Byte)
  | sMulti (h : Hd) (field : List Byte) (terms : List (List Byte))
  | sPfx (h : Hd) (field pre : List Byte) (maxTerms : Int)
  | sFirst (h : Hd) (field : Option (List Byte)) (q : Query) (stop : Int)
  | sOr (h : Hd) (field : Option (List Byte)) (clauses : Queries)
  | sNot (h : Hd) (field : Option (List Byte)) (inc exc : Query)
  | sNear (h : Hd) (field : Option (List Byte)) (clauses : Queries) (slop : Int) (inOrder : Bool)
/-- The clauses of a BooleanQuery, with `occur`: 0 should, 1 must, 2 must not; search.h 266–288. -/
inductive Clauses where
  | nil
  | cons (occur : Fin 3) (q : Query) (rest : Clauses)
/-- The clauses of a SpanOrQuery or a SpanNearQuery. -/
inductive Queries where
  | nil
  | cons (q : Query) (rest : Queries)
/-- Filters: QueryFilter, RangeFilter, TypedRangeFilter, and one that has the default functions; search.h 98–118. -/
inductive Filter where
  | query (addr : Nat) (q : Query)
  | range (addr : Nat) (typed : Bool) (r : Range)
  | other (addr : Nat) (name : List Byte)
end

/-- `self->type`, search.h 193–214. -/
def Query.type : Query → UInt64
  | .term .. => 0
  | .multi .. => 1
  | .bool .. => 2
  | .phrase .. => 3
  | .const .. => 4
  | .filtered .. => 5
  | .all .. => 6
  | .range _ false _ => 7
  | .range _ true _ => 8
  | .wild .. => 9
  | .fuzzy .. => 10
  | .pfx .. => 11
  | .sTerm .. => 12
  | .sMulti .. => 13
  | .sPfx .. => 14
  | .sFirst .. => 15
  | .sOr .. => 16
  | .sNot .. => 17
  | .sNear .. => 18

/-- The head of a query. -/
def Query.hd : Query → Hd
  | .term h .. => h
  | .multi h .. => h
  | .bool h .. => h
  | .phrase h .. => h
  | .const h .. => h
  | .filtered h .. => h
  | .all h => h
  | .range h .. => h
  | .wild h .. => h
  | .fuzzy h .. => h
  | .pfx h .. => h
  | .sTerm h .. => h
  | .sMulti h .. => h
  | .sPfx h .. => h
  | .sFirst h .. => h
  | .sOr h .. => h
  | .sNot h .. => h
  | .sNear h .. => h

/-- The address of a filter. -/
def Filter.addr : Filter → Nat
  | .query a _ => a
  | .range a .. => a
  | .other a _ => a

/-- `filt->name`: filt_new(type) in filter.c 141, q_range.c 292 and 429, where both kinds of ranges are "RangeFilter". -/
def Filter.name : Filter → List Byte
  | .query .. => [81, 117, 101, 114, 121, 70, 105, 108, 116, 101, 114]
  | .range .. => [82, 97, 110, 103, 101, 70, 105, 108, 116, 101, 114]
  | .other _ n => n

/-- Which function `filt->eq` is: filter.c 64, 147; q_range.c 298, 435. -/
def Filter.fn : Filter → Nat
  | .query .. => 0
  | .range .. => 1
  | .other .. => 2

/-- range_hash, q_range.c 79–85. -/
def rangeHash (r : Range) : UInt64 :=
  (if r.incLower then (1 : UInt64) else 0) ||| (if r.incUpper then (2 : UInt64) else 0) |||
    ((strHash r.field ^^^ (match r.lower with | some t => strHash t | none => 0) ^^^
      (match r.upper with | some t => strHash t | none => 0)) <<< 2)

/-- range_eq, q_range.c 87–99. -/
def rangeEq (a b : Range) : Bool :=
  a.field == b.field && a.lower == b.lower && a.upper == b.upper && a.incLower == b.incLower && a.incUpper == b.incUpper

/-- spanq_hash, q_span.c 22–25. -/
def spanHash : Option (List Byte) → UInt64
  | some f => strHash f
  | none => 0

/-- The loop of multi_tq_hash, q_multi_term.c 576–579. -/
def multiHash : UInt64 → List (List Byte × F32) → UInt64
  | h, [] => h
  | h, t :: ts => multiHash (h ^^^ (strHash t.1 ^^^ F32.bits t.2)) ts

/-- The inner loop of phq_hash, q_phrase.c 1104–1107, over the terms from the last to the first. -/
def posHash (pos : Int) : UInt64 → List (List Byte) → UInt64
  | h, [] => h
  | h, t :: ts => posHash pos ((h <<< 1) ^^^ (strHash t ^^^ ofInt pos)) ts

/-- The outer loop of phq_hash, q_phrase.c 1102–1108. -/
def phraseHash : UInt64 → List (Int × List (List Byte)) → UInt64
  | h, [] => h
  | h, p :: ps => phraseHash (posHash p.1 h p.2.reverse) ps

/-- The loop of spanmtq_hash, q_span.c 1660–1662. -/
def termsHash : UInt64 → List (List Byte) → UInt64
  | h, [] => h
  | h, t :: ts => termsHash (h ^^^ strHash t) ts

/-- q_hash, search.c 422–425, of the value of `self->hash(self)`. -/
def qHashOf (q : Query) (h : UInt64) : UInt64 := (h <<< 5) ||| q.type

mutual
/-- `self->hash(self)`: tq_hash q_term.c 292–295, multi_tq_hash q_multi_term.c 571–581, bq_hash q_boolean.c 1515–1523,
phq_hash q_phrase.c 1097–1110, csq_hash q_const_score.c 133–136, maq_hash q_match_all.c 124–128, rq_hash q_range.c
511–514, wcq_hash q_wildcard.c 139–142, fuzq_hash q_fuzzy.c 238–242, prq_hash q_prefix.c 70–73, and in q_span.c
spantq_hash 1562–1565, spanmtq_hash 1655–1664, spanfq_hash 1761–1765, spanoq_hash 1904–1915, spannq_hash 2087–2098,
spanxq_hash 2238–2243, spanprq_hash 2363–2366. A FilteredQuery has none. -/
def hashM : Query → Res UInt64
  | .term _ f t => .ok (strHash t ^^^ strHash f)
  | .multi _ f ts => .ok (multiHash (strHash f) ts)
  | .bool _ cd _ cs => clausesHash 0 cs >>= fun h => .ok ((h <<< 1) ||| (if cd then 1 else 0))
  | .phrase _ f ps slop => .ok (phraseHash (strHash f) ps ^^^ ofInt slop)
  | .const _ f => filtHash f
  | .filtered .. => .ub
  | .all _ => .ok 0
  | .range _ _ r => .ok (rangeHash r)
  | .wild _ f p _ => .ok (strHash f ^^^ strHash p)
  | .fuzzy _ f t ms pl _ => .ok (strHash t ^^^ strHash f ^^^ F32.bits ms ^^^ ofInt pl)
  | .pfx _ f p _ => .ok (strHash f ^^^ strHash p)
  | .sTerm _ f t => .ok (strHash f ^^^ strHash t)
  | .sMulti _ f ts => .ok (termsHash (strHash f) ts)
  | .sPfx _ f p _ => .ok (strHash f ^^^ strHash p)
  | .sFirst _ f q stop => hashM q >>= fun h => .ok (spanHash f ^^^ h ^^^ ofInt stop)
  | .sOr _ f cs => queriesHash (spanHash f) cs
  | .sNot _ f inc exc => hashM inc >>= fun h => hashM exc >>= fun k => .ok (spanHash f ^^^ h ^^^ k)
  | .sNear _ f cs slop io => queriesHash (spanHash f) cs >>= fun h => .ok (((h ^^^ ofInt slop) <<< 1) ||| (if io then 1 else 0))
/-- The loop of bq_hash with bc_hash, q_boolean.c 1301–1304, 1519–1521. -/
def clausesHash : UInt64 → Clauses → Res UInt64
  | h, .nil => .ok h
  | h, .cons o q cs => hashM q >>= fun k => clausesHash (h ^^^ ((qHashOf q k <<< 2) ||| UInt64.ofNat o.val)) cs
/-- The loops of spanoq_hash and spannq_hash, q_span.c 1910–1913, 2093–2096. -/
def queriesHash : UInt64 → Queries → Res UInt64
  | h, .nil => .ok h
  | h, .cons q cs => hashM q >>= fun k => queriesHash (h ^^^ k) cs
/-- filt_hash, filter.c 70–73, with qfilt_hash 122–125, rfilt_hash q_range.c 278–281, filt_hash_default 45–49. -/
def filtHash : Filter → Res UInt64
  | .query a q => hashM q >>= fun k => .ok (strHash (Filter.query a q).name ^^^ qHashOf q k)
  | .range a t r => .ok (strHash (Filter.range a t r).name ^^^ rangeHash r)
  | .other a n => .ok (strHash (Filter.other a n).name ^^^ 0)
end

/-- q_hash, search.c 422–425. -/
def qHash (q : Query) : Res UInt64 := hashM q >>= fun h => .ok (qHashOf q h)

/-- The loop of multi_tq_eq, q_multi_term.c 593–599, after the sizes were found equal. -/
def multiEq : List (List Byte × F32) → List (List Byte × F32) → Bool
  | a :: as, b :: bs => a.1 == b.1 && F32.eq a.2 b.2 && multiEq as bs
  | _, _ => true

/-- The loop of phq_eq, q_phrase.c 1122–1135, after the counts were found equal. -/
def phraseEq : List (Int × List (List Byte)) → List (Int × List (List Byte)) → Bool
  | a :: as, b :: bs => a.2.length == b.2.length && a.1 == b.1 && a.2 == b.2 && phraseEq as bs
  | _, _ => true

/-- How many clauses. -/
def Clauses.len : Clauses → Nat
  | .nil => 0
  | .cons _ _ cs => cs.len + 1

/-- How many clauses. -/
def Queries.len : Queries → Nat
  | .nil => 0
  | .cons _ cs => cs.len + 1

/-- `&&`, the second operand is a call. -/
def andR (a : Bool) (b : Res Bool) : Res Bool := if a then b else .ok false

/-- q_eq, search.c 427–433, of the value of `self->eq(self, o)`. -/
def qEqOf (a b : Query) (r : Res Bool) : Res Bool :=
  if a.hd.addr = b.hd.addr then .ok true else andR (a.type == b.type && F32.eq a.hd.boost b.hd.boost) r

/-- filt_eq, filter.c 75–81, of the value of `filt->eq(filt, o)`. -/
def filtEqOf (a b : Filter) (r : Res Bool) : Res Bool :=
  if a.addr = b.addr then .ok true else andR (a.name == b.name && a.fn == b.fn) r

/-- SpQ(o)->field: only the span queries have one; search.h 498–504. -/
def Query.spanField : Query → Res (Option (List Byte))
  | .sTerm _ f _ => .ok (some f)
  | .sMulti _ f _ => .ok (some f)
  | .sPfx _ f .. => .ok (some f)
  | .sFirst _ f .. => .ok f
  | .sOr _ f _ => .ok f
  | .sNot _ f .. => .ok f
  | .sNear _ f .. => .ok f
  | _ => .ub

/-- spanq_eq, q_span.c 27–30, on the field of `self`, then the rest if they are the same. -/
def spanAnd (f : Option (List Byte)) (o : Query) (r : Res Bool) : Res Bool :=
  o.spanField >>= fun g => andR (f == g) r

mutual
/-- `self->eq(self, o)`: tq_eq q_term.c 297–301, multi_tq_eq q_multi_term.c 583–601, bq_eq q_boolean.c 1525–1542,
phq_eq q_phrase.c 1112–1137, csq_eq q_const_score.c 138–141, maq_eq q_match_all.c 130–134, rq_eq q_range.c 516–519,
wcq_eq q_wildcard.c 144–148, fuzq_eq q_fuzzy.c 244–253, prq_eq q_prefix.c 75–79, and in q_span.c spantq_eq 1567–1570,
spanmtq_eq 1666–1677, spanfq_eq 1767–1773, spanoq_eq 1917–1935, spannq_eq 2100–2122, spanxq_eq 2245–2251, spanprq_eq
2368–2372. -/
def eqM : Query → Query → Res Bool
  | .term _ f t, o => match o with
    | .term _ f' t' => .ok (t == t' && f == f')
    | _ => .ub
  | .multi _ f ts, o => match o with
    | .multi _ f' ts' => .ok (f == f' && ts.length == ts'.length && multiEq ts ts')
    | _ => .ub
  | .bool _ cd mx cs, o => match o with
    | .bool _ cd' _ cs' => andR (cd == cd' && mx == mx && cs.len == cs'.len) (clausesEq cs cs')
    | _ => .ub
  | .phrase _ f ps slop, o => match o with
    | .phrase _ f' ps' slop' => .ok (slop == slop' && f == f' && ps.length == ps'.length && phraseEq ps ps')
    | _ => .ub
  | .const _ f, o => match o with
    | .const _ f' => filtEq f f'
    | _ => .ub
  | .filtered .., _ => .ub
  | .all _, _ => .ok true
  | .range _ _ r, o => match o with
    | .range _ _ r' => .ok (rangeEq r r')
    | _ => .ub
  | .wild _ f p _, o => match o with
    | .wild _ f' p' _ => .ok (p == p' && f == f')
    | _ => .ub
  | .fuzzy _ f t ms pl _, o => match o with
    | .fuzzy _ f' t' ms' pl' _ => .ok (t == t' && f == f' && pl == pl' && F32.eq ms ms')
    | _ => .ub
  | .pfx _ f p _, o => match o with
    | .pfx _ f' p' _ => .ok (p == p' && f == f')
    | _ => .ub
  | .sTerm _ f t, o => spanAnd (some f) o (match o with
    | .sTerm _ _ t' => .ok (t == t')
    | .sPfx _ _ t' _ => .ok (t == t')
    | _ => .ub)
  | .sMulti _ f ts, o => spanAnd (some f) o (match o with
    | .sMulti _ _ ts' => .ok (ts.length == ts'.length && ts == ts')
    | _ => .ub)
  | .sPfx _ f p _, o => match o with
    | .sPfx _ f' p' _ => .ok (p == p' && f == f')
    | .sTerm _ f' p' => .ok (p == p' && f == f')
    | _ => .ub
  | .sFirst _ f q stop, o => spanAnd f o (match o with
    | .sFirst _ _ q' stop' => eqM q q' >>= fun r => .ok (r && stop == stop')
    | _ => .ub)
  | .sOr _ f cs, o => spanAnd f o (match o with
    | .sOr _ _ cs' => andR (cs.len == cs'.len) (queriesEq cs cs')
    | .sNear _ _ cs' _ _ => andR (cs.len == cs'.len) (queriesEq cs cs')
    | _ => .ub)
  | .sNot _ f inc exc, o => spanAnd f o (match o with
    | .sNot _ _ inc' exc' => eqM inc inc' >>= fun r => andR r (eqM exc exc')
    | _ => .ub)
  | .sNear _ f cs slop io, o => spanAnd f o (match o with
    | .sNear _ _ cs' slop' io' => andR (cs.len == cs'.len && slop == slop' && io == io') (queriesEq cs cs')
    | _ => .ub)
/-- The loop of bq_eq with bc_eq, q_boolean.c 1306–1309, 1536–1540. -/
def clausesEq : Clauses → Clauses → Res Bool
  | .cons o q cs, cs'' => match cs'' with
    | .cons o' q' cs' => andR (o == o') (qEqOf q q' (eqM q q')) >>= fun r => andR r (clausesEq cs cs')
    | .nil => .ok true
  | .nil, _ => .ok true
/-- The loops of spanoq_eq and spannq_eq, q_span.c 1927–1933, 2113–2119. -/
def queriesEq : Queries → Queries → Res Bool
  | .cons q cs, cs'' => match cs'' with
    | .cons q' cs' => eqM q q' >>= fun r => andR r (queriesEq cs cs')
    | .nil => .ok true
  | .nil, _ => .ok true
/-- filt_eq, filter.c 75–81, with qfilt_eq 127–130, rfilt_eq q_range.c 283–286, filt_eq_default 51–55. -/
def filtEq : Filter → Filter → Res Bool
  | .query a q, o => filtEqOf (.query a q) o (match o with
    | .query _ q' => qEqOf q q' (eqM q q')
    | _ => .ub)
  | .range a t r, o => filtEqOf (.range a t r) o (match o with
    | .range _ _ r' => .ok (rangeEq r r')
    | _ => .ub)
  | .other a n, o => filtEqOf (.other a n) o (.ok false)
end

/-- q_eq, search.c 427–433. -/
def qEq (a b : Query) : Res Bool := qEqOf a b (eqM a b)

end Ferret.QEq
