import Verif.Model.Search
import Verif.Model.Expand

/-!
Model of sorted searches: c/src/sort.c, c/src/field_index.c and the sorted branches of
`isea_search_w` and `msea_search_w` in c/src/search.c.

Simplifications: floats (scores and float values) are an abstract type `S` with the C `<`; `sscanf`
and `strcoll` are parameters, and a conversion that does not fit its type is not modelled. A reader is, for each field it knows, the terms in the
order of the term enumerator, each with the live documents its enumerator gives (C20-C24), the field
index cache and whether `field_index_mutex` is held. A thread that locks a mutex it already holds
(pthread default type) is undefined. The queue of a sorted search holds each hit with the values its
comparators read: the C code reads them from the field index arrays at every comparison, and the
arrays do not change during a search; reading outside an array is undefined even when no comparison
would have happened. The filters, post filters and `int` arithmetic are as in Model/Search. The
memory of hits and comparables, `sort_field_to_s`, `sort_to_s` and the growth of the array of a
`Sort` are not modelled.
-/

namespace Ferret.Sort
open Ferret.Search (TopDocs Hit)
open Ferret.Expand (Term)

abbrev Name := List Byte

/-- `SortType`, c/include/search.h:666-674. -/
inductive SType where
  | score | doc | byte | integer | float | string | auto
  deriving DecidableEq, Repr

/-- `struct FrtSortField`, c/include/search.h:680-688: `compare`, `get_val` and `field_index_class`
follow from the type (`sort_field_new` and the constructors, c/src/sort.c:14-323; SET_AUTO 361-365).
`field` is unused for `score` and `doc`. -/
structure SortField where
  field : Name
  type : SType
  reverse : Bool
  deriving DecidableEq, Repr

/-- The C library and the order of floats: `scanD` is the length taken by "%d%n", `scanLd` the value
of "%ld", `scanF` value and length of "%g"/"%f%n"; `none` when nothing is converted. `coll` is
`strcoll`. -/
structure Lib (S : Type) where
  lt : S → S → Bool
  zero : S
  coll : Term → Term → Int
  scanD : Term → Option Nat
  scanLd : Term → Option Int
  scanF : Term → Option (S × Nat)

/-- The index of a field, c/src/field_index.c: longs (byte and integer), floats, or the
`FrtStringIndex` of c/include/field_index.h:17-23. -/
inductive Index (S : Type) where
  | longs (a : List Int)
  | floats (a : List S)
  | strings (index : List Nat) (values : List (Option Term))
  deriving DecidableEq, Repr

/-- `while (tde->next(tde)) index[tde->doc_num(tde)] = val`, c/src/field_index.c:106-108, 146-148,
183-185, 240-242. -/
def setDocs {α : Type} (v : α) : List α → List Nat → Res (List α)
  | a, [] => .ok a
  | a, d :: ds => if d < a.length then setDocs v (a.set d v) ds else .ub

/-- `byte_handle_term` (99-109) for each term; `val` is the counter in `index[-1]`. -/
def byteLoop : Int → List Int → List (Term × List Nat) → Res (List Int)
  | _, a, [] => .ok a
  | val, a, (_, docs) :: ts => setDocs val a docs >>= fun a => byteLoop (val + 1) a ts

/-- `integer_handle_term` (139-149) for each term: `val` is indeterminate when nothing is
converted. -/
def intLoop {S : Type} (lib : Lib S) : List Int → List (Term × List Nat) → Res (List Int)
  | a, [] => .ok a
  | a, (t, docs) :: ts =>
    match lib.scanLd t with
    | some val => setDocs val a docs >>= fun a => intLoop lib a ts
    | none => if docs = [] then intLoop lib a ts else .ub

/-- `float_handle_term` (176-186) for each term. -/
def floatLoop {S : Type} (lib : Lib S) : List S → List (Term × List Nat) → Res (List S)
  | a, [] => .ok a
  | a, (t, docs) :: ts =>
    match lib.scanF t with
    | some val => setDocs val.1 a docs >>= fun a => floatLoop lib a ts
    | none => if docs = [] then floatLoop lib a ts else .ub

/-- `string_handle_term` (230-244) for each term; `v_size` is the length of `values`. -/
def stringLoop : List Nat → List (Option Term) → List (Term × List Nat) → Res (List Nat × List (Option Term))
  | a, vs, [] => .ok (a, vs)
  | a, vs, (t, docs) :: ts => setDocs vs.length a docs >>= fun a => stringLoop a (vs ++ [some t]) ts

/-- `create_index` (111-116, 134-137, 171-174, 207-216) and the loop of `field_index_get` (74-78).
Only these four classes exist. -/
def buildIndex {S : Type} (lib : Lib S) (cls : SType) (maxDoc : Nat) (terms : List (Term × List Nat)) : Res (Index S) :=
  match cls with
  | .byte => byteLoop 1 (List.replicate maxDoc 0) terms >>= fun a => .ok (.longs a)
  | .integer => intLoop lib (List.replicate maxDoc 0) terms >>= fun a => .ok (.longs a)
  | .float => floatLoop lib (List.replicate maxDoc lib.zero) terms >>= fun a => .ok (.floats a)
  | .string => stringLoop (List.replicate maxDoc 0) [none] terms >>= fun r => .ok (.strings r.1 r.2)
  | _ => .ub

/-- The reader a search runs on. -/
structure Reader (S : Type) where
  maxDoc : Nat
  numDocs : Nat
  fields : List (Name × List (Term × List Nat))
  cache : List ((Name × SType) × Index S)
  locked : Bool

/-- The terms of a field of the reader; `none` when the field does not exist. -/
def Reader.terms {S : Type} (rd : Reader S) (f : Name) : Option (List (Term × List Nat)) := rd.fields.lookup f

/-- `field_index_get`, c/src/field_index.c:34-89. For `length == 0` the C code leaves `index`
uninitialised; `isea_search_w` never gets here then. -/
def fieldIndexGet {S : Type} (lib : Lib S) (rd : Reader S) (f : Name) (cls : SType) : Res (Index S) × Reader S :=
  match rd.terms f with
  | none => (.raise .arg, rd)
  | some terms =>
    match rd.cache.lookup (f, cls) with
    | some ix => (.ok ix, rd)
    | none =>
      if rd.maxDoc = 0 then (.ub, rd)
      else
        match buildIndex lib cls rd.maxDoc terms with
        | .ok ix => (.ok ix, { rd with cache := ((f, cls), ix) :: rd.cache })
        | .raise e => (.raise e, rd)
        | .ub => (.ub, rd)

/-- `sort_field_auto_evaluate`, c/src/sort.c:367-385. `scan_len` keeps its value when nothing is
converted. -/
def autoEvaluate {S : Type} (lib : Lib S) (text : Term) : SType :=
  let scanLen := (lib.scanD text).getD 0
  if scanLen = text.length then .integer
  else
    let scanLen := ((lib.scanF text).map (·.2)).getD scanLen
    if scanLen = text.length then .float else .string

/-- `struct Comparator`, c/src/sort.c:335-339; `index` is NULL for `score` and `doc`. -/
structure Comparator (S : Type) where
  type : SType
  reverse : Bool
  index : Option (Index S)

/-- The AUTO branch of `sorter_get_comparator`, c/src/sort.c:429-438: `ir_terms`
(c/src/index.c:4057-4065) is NULL for an unknown field and then dereferenced. The current term of an
enumerator at the end before any term is the empty string. -/
def resolve {S : Type} (lib : Lib S) (rd : Reader S) (sf : SortField) : Res SortField :=
  if sf.type = .auto then
    match rd.terms sf.field with
    | none => .ub
    | some [] => if rd.numDocs > 0 then .raise .arg else .ok { sf with type := autoEvaluate lib [] }
    | some ((t, _) :: _) => .ok { sf with type := autoEvaluate lib t }
  else .ok sf

/-- `sorter_get_comparator`, c/src/sort.c:423-445: the comparator, the sort field as it is
afterwards and the reader afterwards. An exception leaves `field_index_mutex` locked. -/
def getComparator {S : Type} (lib : Lib S) (sf : SortField) (rd : Reader S) : Res (Comparator S) × SortField × Reader S :=
  if sf.type = .score ∨ sf.type = .doc then (.ok ⟨sf.type, sf.reverse, none⟩, sf, rd)
  else
    match resolve lib rd sf with
    | .ub => (.ub, sf, rd)
    | .raise e => (.raise e, sf, rd)
    | .ok sf =>
      if rd.locked then (.ub, sf, rd)
      else
        match fieldIndexGet lib { rd with locked := true } sf.field sf.type with
        | (.ok ix, rd) => (.ok ⟨sf.type, sf.reverse, some ix⟩, sf, { rd with locked := false })
        | (.raise e, rd) => (.raise e, sf, rd)
        | (.ub, rd) => (.ub, sf, rd)

/-- The loop of `fshq_pq_new`, c/src/sort.c:590-593. -/
def mkSorter {S : Type} (lib : Lib S) : List SortField → Reader S → Res (List (Comparator S)) × List SortField × Reader S
  | [], rd => (.ok [], [], rd)
  | sf :: sfs, rd =>
    match getComparator lib sf rd with
    | (.ok c, sf, rd) =>
      match mkSorter lib sfs rd with
      | (.ok cs, sfs, rd) => (.ok (c :: cs), sf :: sfs, rd)
      | (.raise e, sfs, rd) => (.raise e, sf :: sfs, rd)
      | (.ub, sfs, rd) => (.ub, sf :: sfs, rd)
    | (.raise e, sf, rd) => (.raise e, sf :: sfs, rd)
    | (.ub, sf, rd) => (.ub, sf :: sfs, rd)

/-- The union `val` of `struct FrtComparable`, c/include/search.h. -/
inductive Key (S : Type) where
  | long (v : Int)
  | flt (v : S)
  | str (v : Option Term)
  deriving DecidableEq, Repr

/-- `struct FrtComparable`, c/include/search.h. -/
structure Comparable (S : Type) where
  type : SType
  val : Key S
  reverse : Bool
  deriving DecidableEq, Repr

/-- `struct FrtFieldDoc`, c/include/search.h: a hit and what it is sorted by. -/
structure FieldDoc (S : Type) where
  doc : Nat
  score : S
  cmps : List (Comparable S)
  deriving DecidableEq, Repr

/-- The `get_val` functions, c/src/sort.c:110-114, 155-159, 200-203, 225-228, 250-253, 275-280; the
`compare` functions read the same values (116-125, 161-170, 205-212, 230-237, 255-262, 282-287). -/
def readKey {S : Type} (c : Comparator S) (doc : Nat) (score : S) : Res (Key S) :=
  match c.type, c.index with
  | .score, _ => .ok (.flt score)
  | .doc, _ => .ok (.long doc)
  | .byte, some (.longs a) => Res.ofOption a[doc]? >>= fun v => .ok (.long v)
  | .integer, some (.longs a) => Res.ofOption a[doc]? >>= fun v => .ok (.long v)
  | .float, some (.floats a) => Res.ofOption a[doc]? >>= fun v => .ok (.flt v)
  | .string, some (.strings a vs) => Res.ofOption a[doc]? >>= fun i => Res.ofOption vs[i]? >>= fun v => .ok (.str v)
  | _, _ => .ub

/-- The values of all comparators; types and reversals as stored by `fshq_pq_pop_fd`,
c/src/sort.c:624-630. -/
def readKeys {S : Type} (doc : Nat) (score : S) : List (Comparator S) → Res (List (Comparable S))
  | [] => .ok []
  | c :: cs => readKey c doc score >>= fun k => readKeys doc score cs >>= fun ks => .ok (⟨c.type, k, c.reverse⟩ :: ks)

/-- The string comparison, c/src/sort.c:289-296 and 682-688. -/
def strCompare {S : Type} (lib : Lib S) : Option Term → Option Term → Int
  | none, none => 0
  | none, some _ => 1
  | some _, none => -1
  | some s, some t => lib.coll s t

/-- The `compare` functions, c/src/sort.c:116-125, 161-170, 205-212, 230-237, 255-262, 282-307.
Values of different kinds are never compared (all come from one comparator): 0. -/
def compare {S : Type} (lib : Lib S) (type : SType) (a b : Key S) : Int :=
  match type, a, b with
  | .score, .flt x, .flt y => if lib.lt x y then 1 else if lib.lt y x then -1 else 0
  | .float, .flt x, .flt y => if lib.lt y x then 1 else if lib.lt x y then -1 else 0
  | .doc, .long x, .long y => if x > y then 1 else if x < y then -1 else 0
  | .byte, .long x, .long y => if x > y then 1 else if x < y then -1 else 0
  | .integer, .long x, .long y => if x > y then 1 else if x < y then -1 else 0
  | .string, .str x, .str y => strCompare lib x y
  | _, _, _ => 0

/-- The loop of `fshq_lt`, c/src/sort.c:485-493. -/
def fshqDiff {S : Type} (lib : Lib S) : List (Comparable S) → List (Comparable S) → Int
  | a :: as, b :: bs =>
    let diff := if a.reverse then compare lib a.type b.val a.val else compare lib a.type a.val b.val
    if diff = 0 then fshqDiff lib as bs else diff
  | _, _ => 0

/-- `fshq_lt`, c/src/sort.c:482-500. -/
def fshqLt {S : Type} (lib : Lib S) (a b : FieldDoc S) : Bool :=
  let diff := fshqDiff lib a.cmps b.cmps
  if diff ≠ 0 then decide (diff > 0) else decide (a.doc > b.doc)

/-- The switch of `fdshq_lt`, c/src/sort.c:657-694: of the two `if`s of a case the last wins. -/
def fdCompare {S : Type} (lib : Lib S) (doc1 doc2 : Nat) (type : SType) (a b : Key S) : Int :=
  match type, a, b with
  | .score, .flt x, .flt y => if lib.lt y x then -1 else if lib.lt x y then 1 else 0
  | .float, .flt x, .flt y => if lib.lt x y then -1 else if lib.lt y x then 1 else 0
  | .doc, _, _ => if doc1 < doc2 then -1 else if doc1 > doc2 then 1 else 0
  | .integer, .long x, .long y => if x < y then -1 else if x > y then 1 else 0
  | .byte, .long x, .long y => if x < y then -1 else if x > y then 1 else 0
  | .string, .str x, .str y => strCompare lib x y
  | _, _, _ => 0

/-- The loop of `fdshq_lt`, c/src/sort.c:655-698. -/
def fdshqDiff {S : Type} (lib : Lib S) (doc1 doc2 : Nat) : List (Comparable S) → List (Comparable S) → Int
  | a :: as, b :: bs =>
    let c := fdCompare lib doc1 doc2 a.type a.val b.val
    let c := if a.reverse then -c else c
    if c = 0 then fdshqDiff lib doc1 doc2 as bs else c
  | _, _ => 0

/-- `fdshq_lt`, c/src/sort.c:649-705. The type AUTO, for which it raises, is never stored
(`resolve`). -/
def fdshqLt {S : Type} (lib : Lib S) (a b : FieldDoc S) : Bool :=
  let c := fdshqDiff lib a.doc b.doc a.cmps b.cmps
  if c = 0 then decide (a.doc > b.doc) else decide (c > 0)

/-- What a search returns: `struct FrtTopDocs` with hits that are `FieldDoc`s. -/
structure TopFields (S : Type) where
  totalHits : Nat
  hits : List (FieldDoc S)
  maxScore : S
  deriving DecidableEq, Repr

/-- State of the collecting loop: queue, total_hits, max_score. -/
structure Coll (S : Type) where
  hq : PQ.PQ (FieldDoc S)
  total : Nat
  maxScore : S

/-- One iteration of the loop of `isea_search_w`, c/src/search.c:1078-1093, with
`fshq_pq_insert` (c/src/sort.c:558-575), `fshq_pq_up` (541-556) and `fshq_pq_down` (502-525), line by
line the generic queue functions with `fshq_lt`. -/
def collect1 {S : Type} (lib : Lib S) (cs : List (Comparator S)) (bits : Option BitVector.BV) (pf : Option (Nat → S → Option S))
    (c : Coll S) (h : Hit S) : Res (Coll S) :=
  Search.passBits bits h.doc >>= fun p =>
    if !p then .ok c
    else
      match Search.postFilter pf h.doc h.score with
      | none => .ok c
      | some score =>
        let mx := if lib.lt c.maxScore score then score else c.maxScore
        readKeys h.doc score cs >>= fun ks =>
        PQ.insert (fshqLt lib) c.hq ⟨h.doc, score, ks⟩ >>= fun r =>
          .ok { hq := r.1, total := c.total + 1, maxScore := mx }

/-- The whole loop. -/
def collect {S : Type} (lib : Lib S) (cs : List (Comparator S)) (bits : Option BitVector.BV) (pf : Option (Nat → S → Option S))
    (c : Coll S) : List (Hit S) → Res (Coll S)
  | [] => .ok c
  | h :: hs => collect1 lib cs bits pf c h >>= fun c' => collect lib cs bits pf c' hs

/-- `isea_search_w` with a sort, c/src/search.c:1027-1116: result, the sort and the reader
afterwards. `fshq_pq_pop` (c/src/sort.c:527-539) and `fshq_pq_pop_fd` (599-634) pop the same hit. -/
def iseaSorted {S : Type} (lib : Lib S) (rd : Reader S) (sort : List SortField) (scorer : Option (List (Hit S)))
    (bits : Option BitVector.BV) (pf : Option (Nat → S → Option S)) (first num : Int) :
    Res (TopFields S) × List SortField × Reader S :=
  match Search.maxSize num first >>= fun mx => Search.checkArgs num first >>= fun _ => .ok mx with
  | .raise e => (.raise e, sort, rd)
  | .ub => (.ub, sort, rd)
  | .ok mx =>
    match scorer with
    | none => (.ok ⟨0, [], lib.zero⟩, sort, rd)
    | some hits =>
      if rd.numDocs = 0 then (.ok ⟨0, [], lib.zero⟩, sort, rd)
      else
        match mkSorter lib sort rd with
        | (.raise e, sort, rd) => (.raise e, sort, rd)
        | (.ub, sort, rd) => (.ub, sort, rd)
        | (.ok cs, sort, rd) =>
          (collect lib cs bits pf { hq := PQ.new mx.toNat, total := 0, maxScore := lib.zero } hits >>= fun c =>
            Search.pageBy (fshqLt lib) c.hq first.toNat num.toNat >>= fun hs =>
              .ok { totalHits := c.total, hits := hs, maxScore := c.maxScore }, sort, rd)

/-- `hit->doc += start; pq_insert(hq, hit)`, c/src/search.c:1705-1712. -/
def insertShifted {S : Type} (lib : Lib S) (start : Nat) (hq : PQ.PQ (FieldDoc S)) : List (FieldDoc S) → Res (PQ.PQ (FieldDoc S))
  | [] => .ok hq
  | h :: hs => PQ.insert (fdshqLt lib) hq { h with doc := h.doc + start } >>= fun r => insertShifted lib start r.1 hs

/-- A sub-searcher: its start, reader and the inputs of its `search_w`. -/
structure Sub (S : Type) where
  start : Nat
  reader : Reader S
  scorer : Option (List (Hit S))
  bits : Option BitVector.BV

/-- The loop over sub-searchers, c/src/search.c:1696-1718. The sort is shared: what one sub-searcher
makes of an AUTO field the next ones use. -/
def mseaLoop {S : Type} (lib : Lib S) (pf : Option (Nat → S → Option S)) (mx : Int) :
    Coll S → List SortField → List (Sub S) → Res (Coll S) × List SortField
  | c, sort, [] => (.ok c, sort)
  | c, sort, s :: ss =>
    match iseaSorted lib s.reader sort s.scorer s.bits pf 0 mx with
    | (.raise e, sort, _) => (.raise e, sort)
    | (.ub, sort, _) => (.ub, sort)
    | (.ok td, sort, _) =>
      match insertShifted lib s.start c.hq td.hits with
      | .raise e => (.raise e, sort)
      | .ub => (.ub, sort)
      | .ok hq =>
        let ms := if td.hits.length > 0 ∧ lib.lt c.maxScore td.maxScore then td.maxScore else c.maxScore
        mseaLoop lib pf mx { hq := hq, total := c.total + td.totalHits, maxScore := ms } sort ss

/-- `msea_search_w` with a sort over index searchers, c/src/search.c:1663-1740; also the sort
afterwards. -/
def mseaSorted {S : Type} (lib : Lib S) (subs : List (Sub S)) (sort : List SortField) (pf : Option (Nat → S → Option S))
    (first num : Int) : Res (TopFields S) × List SortField :=
  match Search.maxSize num first >>= fun mx => Search.checkArgs num first >>= fun _ => .ok mx with
  | .raise e => (.raise e, sort)
  | .ub => (.ub, sort)
  | .ok mx =>
    match mseaLoop lib pf mx { hq := PQ.new mx.toNat, total := 0, maxScore := lib.zero } sort subs with
    | (.raise e, sort) => (.raise e, sort)
    | (.ub, sort) => (.ub, sort)
    | (.ok c, sort) =>
      (Search.pageBy (fdshqLt lib) c.hq first.toNat num.toNat >>= fun hs =>
        .ok { totalHits := c.total, hits := hs, maxScore := c.maxScore }, sort)

/-- A sub-searcher before `msea_new` assigns its start. -/
structure SubIn (S : Type) where
  reader : Reader S
  scorer : Option (List (Hit S))
  bits : Option BitVector.BV

/-- `msea_new`, c/src/search.c:1829-1838. -/
def mkSubs {S : Type} (start : Nat) : List (SubIn S) → List (Sub S)
  | [] => []
  | s :: ss => ⟨start, s.reader, s.scorer, s.bits⟩ :: mkSubs (start + s.reader.maxDoc) ss

end Ferret.Sort
