import Verif.Spec.QueryText

/-!
The text of queries: dbl_to_s, vstrfmt and estrcat (c/src/global.c 101–110, 138–167, 184–245) and the functions `to_s` of
queries and filters (q_term.c 265–285, q_multi_term.c 505–553, q_phrase.c 965–1056, q_prefix.c 14–34, q_wildcard.c 14–32,
q_fuzzy.c 152–175, q_range.c 21–70, 210–216, 310–316, 454–457, q_match_all.c 114–122, q_boolean.c 1418–1481,
q_const_score.c 111–125, q_filtered_query.c 167–183, q_span.c 1534–1542, 1596–1622, 1722–1729, 1811–1836, 1995–2020,
2185–2195, 2307–2328, filter.c 40–43, 96–103) and td_to_s (search.c 209–220). A buffer is what is written to it so far and
the size it is allocated with; writing behind it is undefined behaviour, and so is reading a text without a zero at its end
or memory that `realloc` has freed.

Simplifications. Characters are those of one byte; the terminating zero is not among them. What `printf` writes for floating
point numbers is a parameter (`Nums`); `int` arguments for `%d`, which vstrfmt reads as `long`, are taken as the same number.
Sizes are natural numbers: an overflow of `int` is not modelled. `qsort` is a parameter. The words of a query for any of
several words are given in the order in which pq_pop gives them.
-/

namespace Ferret.QText

open Ferret.Spec
open Ferret.QP (Fld Occ)

/-- A buffer of `cap` bytes of which the first are written. -/
structure Buf where
  cap : Nat
  txt : List Char

/-- ALLOC_N(char, cap). -/
def alloc (cap : Nat) : Buf := ⟨cap, []⟩

/-- memcpy to the end of what is written, and `*(p++) = c`. -/
def Buf.put (b : Buf) (s : List Char) : Res Buf := if b.txt.length + s.length ≤ b.cap then .ok ⟨b.cap, b.txt ++ s⟩ else .ub

/-- sprintf to the end of what is written: a zero is written as well. -/
def Buf.print (b : Buf) (s : List Char) : Res Buf := if b.txt.length + s.length < b.cap then .ok ⟨b.cap, b.txt ++ s⟩ else .ub

/-- The terminating zero. -/
def Buf.done (b : Buf) : Res (List Char) := if b.txt.length < b.cap then .ok b.txt else .ub

/-- `p[-1] = c`. -/
def Buf.setLast (b : Buf) (c : Char) : Res Buf := if b.txt = [] then .ub else .ok ⟨b.cap, b.txt.dropLast ++ [c]⟩

/-- The loop of dbl_to_s that drops zeros, global.c 160–163, on what is before the exponent, last character first. -/
def dropZeros : List Char → Res (List Char)
  | [] => .ub
  | c :: r =>
    if c = '0' then
      match r with
      | [] => .ub
      | d :: r' => if d.isDigit then dropZeros (d :: r') else .ok (c :: d :: r')
    else .ok (c :: r)

/-- dbl_to_s, global.c 138–167, with `room` bytes from where it writes; `none` if nothing is written (infinite numbers). -/
def dblToS {N : Type} (nm : Nums N) (room : Nat) (n : N) : Res (Option (List Char)) :=
  if nm.finite n = false then .ok none
  else if room < (nm.g n).text.length + 1 then .ub
  else do
    let (m, x) := ((nm.g n).text.takeWhile (· ≠ 'e'), (nm.g n).text.dropWhile (· ≠ 'e'))
    let (m, x) ← match m.getLast? with
      | none => .ub
      | some c =>
        if c.isDigit then .ok (m, x)
        else if room < (nm.e n).text.length + 1 then .ub
        else .ok ((nm.e n).text.takeWhile (· ≠ 'e'), (nm.e n).text.dropWhile (· ≠ 'e'))
    let r ← dropZeros m.reverse
    return some (r.reverse ++ x)

/-- dbl_to_s to the end of what is written; the text must have got a zero. -/
def Buf.dbl {N : Type} (nm : Nums N) (b : Buf) (n : N) : Res Buf := do
  match ← dblToS nm (b.cap - b.txt.length) n with
  | none => .ub
  | some s => return ⟨b.cap, b.txt ++ s⟩

/-- The loop of vstrfmt, global.c 196–242; `b.cap` is `len`. A `%` at the end of the format makes the loop run past it. -/
def fmtGo {N : Type} (nm : Nums N) : List Char → List (FArg N) → Buf → Res (List Char)
  | [], _, b => b.done
  | [c], _, b => if c = '%' then .ub else do
    let b ← b.put [c]
    b.done
  | c :: d :: p, args, b =>
    if c = '%' then
      if d = 's' then do
        let (s, args) ← Res.ofOption (nextStr args)
        let s := s.getD "(null)".toList
        let b ← Buf.put ⟨b.cap + s.length, b.txt⟩ s
        fmtGo nm p args b
      else if d = 'f' then do
        let (n, args) ← Res.ofOption (nextDbl args)
        let _ ← b.done
        let s ← dblToS nm (b.cap + 32 - b.txt.length) n
        fmtGo nm p args ⟨b.cap + 32, b.txt ++ s.getD []⟩
      else if d = 'd' then do
        let (i, args) ← Res.ofOption (nextInt args)
        let _ ← b.done
        let b ← Buf.print ⟨b.cap + 20, b.txt⟩ (intText i)
        fmtGo nm p args b
      else do
        let b ← b.put [d]
        fmtGo nm p args b
    else do
      let b ← b.put [c]
      fmtGo nm (d :: p) args b

/-- vstrfmt, global.c 184–245. -/
def strfmt {N : Type} (nm : Nums N) (fmt : List Char) (args : List (FArg N)) : Res (List Char) := fmtGo nm fmt args (alloc (fmt.length + 1))

/-- The field at the start of a text, q_term.c 272–276 and the like. -/
def putField (df : Option Fld) (f : Fld) (b : Buf) : Res Buf := if df = some f then .ok b else b.put (f ++ [':'])

/-- The field at the start of a text with sprintf, q_prefix.c 23–25 and the like. -/
def printField (df : Option Fld) (f : Fld) (b : Buf) : Res Buf := if df = some f then .ok b else b.print (f ++ [':'])

/-- The end of a text: a zero, or `^` and the boost over it, q_term.c 279–283 and the like. -/
def endBoost {N : Type} (nm : Nums N) (x : N) (b : Buf) : Res (List Char) := do
  let _ ← b.done
  if nm.one x then return b.txt
  let b ← b.put ['^']
  let b ← b.dbl nm x
  return b.txt

/-- tq_to_s, q_term.c 265–285. -/
def termToS {N : Type} (nm : Nums N) (df : Option Fld) (f : Fld) (w : List Char) (x : N) : Res (List Char) := do
  let b ← putField df f (alloc (34 + f.length + w.length))
  let b ← b.put w
  endBoost nm x b

/-- The boost of a word, q_multi_term.c 531–535. -/
def wordBoost {N : Type} (nm : Nums N) (x : N) (b : Buf) : Res Buf :=
  if nm.one x then .ok b
  else do
    let b ← b.put ['^']
    b.dbl nm x

/-- The loop over the words of multi_tq_to_s, q_multi_term.c 528–538. -/
def multiGo {N : Type} (nm : Nums N) : List (List Char × N) → Buf → Res Buf
  | [], b => .ok b
  | (w, x) :: ws, b => do
    let b ← b.print w
    let b ← wordBoost nm x b
    let b ← b.put ['|']
    multiGo nm ws b

/-- multi_tq_to_s, q_multi_term.c 505–553. -/
def multiToS {N : Type} (nm : Nums N) (df : Option Fld) (f : Fld) (ws : List (List Char × N)) (x : N) : Res (List Char) := do
  let b := alloc ((ws.map fun y => y.1.length + 35).sum + f.length + 35)
  let b ← printField df f b
  let b ← b.put ['"']
  let b ← multiGo nm ws b
  let b ← match b.txt.getLast? with
    | none => .ub
    | some c => if c = '"' then b.put ['"'] else b.setLast '"'
  endBoost nm x b

/-- The loop over the words of a place, q_phrase.c 1029–1035. -/
def wordsGo : List (List Char) → Buf → Res Buf
  | [], b => .ok b
  | w :: ws, b => do
    let b ← b.put w
    let b ← b.put ['|']
    wordsGo ws b

/-- The loop that writes `<>` for empty places, q_phrase.c 1022–1025. -/
def gapsGo : Nat → Buf → Res Buf
  | 0, b => .ok b
  | n + 1, b => do
    let b ← b.put "<> ".toList
    gapsGo n b

/-- What is written before a place, q_phrase.c 1018–1026. -/
def betweenGo (last p : Int) (b : Buf) : Res Buf := if p = last then b.setLast '&' else gapsGo (p - 1 - last).toNat b

/-- The loop over the places, q_phrase.c 1013–1037. -/
def placesGo (last : Int) : List (Int × List (List Char)) → Buf → Res Buf
  | [], b => .ok b
  | (p, ws) :: ps, b => do
    let b ← betweenGo last p b
    let b ← wordsGo ws b
    let b ← b.setLast ' '
    placesGo p ps b

/-- The slop, q_phrase.c 1046–1048. -/
def slopTo (slop : Int) (b : Buf) : Res Buf := if slop = 0 then .ok b else b.print ('~' :: intText slop)

/-- phq_to_s, q_phrase.c 965–1056 (the boost, 1050–1053, is written as in multi_tq_to_s); `qs` sorts the places. -/
def phraseToS {N : Type} (nm : Nums N) (qs : List (Int × List (List Char)) → List (Int × List (List Char))) (df : Option Fld) (f : Fld)
    (ps : List (Int × List (List Char))) (slop : Int) (x : N) : Res (List Char) :=
  if ps = [] then
    (if df = some f then .ok "\"\"".toList else strfmt nm "%s:\"\"".toList [.str (some f)])
  else do
    let ps := qs ps
    let (p0, _) ← Res.ofOption ps.head?
    let (pl, _) ← Res.ofOption ps.getLast?
    let len := f.length + 1 + (ps.map fun y => (y.2.map fun w => w.length + 5).sum).sum + (100 + 3 * (pl - p0)).toNat
    let b ← putField df f (alloc len)
    let b ← b.put ['"']
    let b ← placesGo (p0 - 1) ps b
    let b := if b.txt.getLast? = some ' ' then ⟨b.cap, b.txt.dropLast⟩ else b
    let b ← b.put ['"']
    let _ ← b.done
    let b ← slopTo slop b
    let b ← wordBoost nm x b
    return b.txt

/-- prq_to_s, q_prefix.c 14–34, and spanprq_to_s, q_span.c 2307–2328. -/
def preToS {N : Type} (nm : Nums N) (df : Option Fld) (f : Fld) (w : List Char) (x : N) : Res (List Char) := do
  let b := alloc (w.length + f.length + 35)
  let b ← printField df f b
  let b ← b.print (w ++ ['*'])
  endBoost nm x b

/-- wcq_to_s, q_wildcard.c 14–32. -/
def wildToS {N : Type} (nm : Nums N) (df : Option Fld) (f : Fld) (w : List Char) (x : N) : Res (List Char) := do
  let b := alloc (w.length + f.length + 35)
  let b ← printField df f b
  let b ← b.print w
  endBoost nm x b

/-- The similarity, q_fuzzy.c 164–167; an infinite one leaves the zero behind `~`. -/
def simTo {N : Type} (nm : Nums N) (sim : N) (b : Buf) : Res Buf :=
  if nm.half sim then .ok b
  else do
    let s ← dblToS nm (b.cap - b.txt.length) sim
    return ⟨b.cap, b.txt ++ s.getD []⟩

/-- fuzq_to_s, q_fuzzy.c 152–175. -/
def fuzzyToS {N : Type} (nm : Nums N) (df : Option Fld) (f : Fld) (w : List Char) (sim x : N) : Res (List Char) := do
  let b := alloc (w.length + f.length + 70)
  let b ← printField df f b
  let b ← b.print (w ++ ['~'])
  let b ← simTo nm sim b
  endBoost nm x b

/-- range_to_s, q_range.c 21–70. -/
def rangeToS {N : Type} (nm : Nums N) (df : Option Fld) (f : Fld) (lo hi : Option (List Char)) (incLo incHi : Bool) (x : N) : Res (List Char) := do
  let b := alloc (f.length + (lo.getD []).length + (hi.getD []).length + 40)
  let b ← putField df f b
  let b ← match lo with
    | some l => do
      let b ← b.put [if incLo then '[' else '{']
      b.put l
    | none => b.put ['<']
  let b ← if lo.isSome ∧ hi.isSome then b.put [' '] else .ok b
  let b ← match hi with
    | some h => do
      let b ← b.put h
      b.put [if incHi then ']' else '}']
    | none => b.put ['>']
  endBoost nm x b

/-- range_to_s with a boost of 1.0, as for filters, q_range.c 212 and 312. -/
def rangeFilterToS {N : Type} (f : Fld) (lo hi : Option (List Char)) (incLo incHi : Bool) : Res (List Char) :=
  rangeToS (⟨fun _ => true, fun _ => true, fun _ => true, fun _ => ⟨[], [], []⟩, fun _ => ⟨[], [], []⟩⟩ : Nums Unit) none f lo hi incLo incHi ()

/-- The loop that makes the buffer larger, q_boolean.c 1441–1444; `fuel` bounds its steps. -/
def growGo : Nat → Nat → Nat → Nat → Nat
  | 0, size, _, _ => size
  | k + 1, size, bp, needed => if size - bp < needed then growGo k (size * 2) bp needed else size

/-- One clause of a boolean query, q_boolean.c 1438–1468; `s` is its text, `first` whether `i` is 0. -/
def clauseTo (o : Occ) (isBool : Bool) (s : List Char) (first : Bool) (b : Buf) : Res Buf := do
  let b : Buf := ⟨growGo (b.txt.length + s.length + 5) b.cap b.txt.length (s.length + 5), b.txt⟩
  let b ← b.put (if first then [] else [' '])
  let b ← b.put (signText o)
  if isBool then do
    let b ← b.put ['(']
    let b ← b.put s
    b.put [')']
  else b.put s

/-- The end of bq_to_s, q_boolean.c 1471–1480. -/
def boolEnd {N : Type} (nm : Nums N) (x : N) (b : Buf) : Res (List Char) := do
  if nm.one x then b.done
  else do
    let s ← strfmt nm ")^%f".toList [.dbl x]
    let b ← Buf.put ⟨b.txt.length + s.length + 1, b.txt⟩ s
    b.done

/-- The loop over the texts of clauses of a span query, q_span.c 1826–1830 and 2010–2014. -/
def spanGo : List (List Char) → Bool → Buf → Res Buf
  | [], _, b => .ok b
  | s :: ss, first, b => do
    let b ← if first then .ok b else b.put [',']
    let b ← b.print s
    spanGo ss false b

/-- spanoq_to_s, q_span.c 1811–1836, for the texts of the clauses. -/
def spanOrToS (ss : List (List Char)) : Res (List Char) := do
  let b ← (alloc (50 + (ss.map fun s => s.length + 2).sum)).print "span_or[".toList
  let b ← spanGo ss true b
  let b ← b.put [']']
  b.done

/-- spannq_to_s, q_span.c 1995–2020, for the texts of the clauses. -/
def spanNearToS (ss : List (List Char)) : Res (List Char) := do
  let b ← (alloc (50 + (ss.map List.length).sum)).print "span_near[".toList
  let b ← spanGo ss true b
  let b ← b.put [']']
  b.done

/-- The words of spanmtq_to_s, q_span.c 1598–1612. -/
def spanWordsToS (ws : List (List Char)) : Res (List Char) := do
  let b ← (alloc (3 + (ws.map fun s => s.length + 2).sum)).put ['[']
  let b ← spanGo ws true b
  let b ← b.put [']']
  b.done

mutual
/-- The functions `to_s` of queries. -/
def toS {N : Type} (nm : Nums N) (qs : List (Int × List (List Char)) → List (Int × List (List Char))) (df : Option Fld) : TQ N → Res (List Char)
  | .term f w b => termToS nm df f w b
  | .multi f ws b => multiToS nm df f ws b
  | .phrase f ps slop b => phraseToS nm qs df f ps slop b
  | .pre f w b => preToS nm df f w b
  | .wild f w b => wildToS nm df f w b
  | .fuzzy f w sim b => fuzzyToS nm df f w sim b
  | .range f lo hi i j b => rangeToS nm df f lo hi i j b
  | .all b => if nm.one b then .ok ['*'] else strfmt nm "*^%f".toList [.dbl b]
  | .bool cs b => do
    let u ← if nm.one b then .ok (alloc 64) else (alloc 64).put ['(']
    let u ← clausesTo nm qs df true cs u
    boolEnd nm b u
  | .const flt b => do
    let s ← filterToS nm qs flt
    if nm.one b then strfmt nm "ConstantScore(%s)".toList [.str (some s)]
    else strfmt nm "ConstantScore(%s)^%f".toList [.str (some s), .dbl b]
  | .filtered q flt b => do
    let s ← filterToS nm qs flt
    let t ← toS nm qs df q
    if nm.one b then strfmt nm "FilteredQuery(query:%s, filter:%s)".toList [.str (some t), .str (some s)]
    else strfmt nm "FilteredQuery(query:%s, filter:%s)^%f".toList [.str (some t), .str (some s), .dbl b]
  | .spanTerm f w =>
    if df = some f then strfmt nm "span_terms(%s)".toList [.str (some w)]
    else strfmt nm "span_terms(%s:%s)".toList [.str (some f), .str (some w)]
  | .spanMulti f ws => do
    let s ← spanWordsToS ws
    if df = some f then strfmt nm "span_terms(%s)".toList [.str (some s)]
    else strfmt nm "span_terms(%s:%s)".toList [.str (some f), .str (some s)]
  | .spanFirst q last => do
    let s ← toS nm qs df q
    strfmt nm "span_first(%s, %d)".toList [.str (some s), .int last]
  | .spanOr cs => do
    let ss ← listToS nm qs df cs
    spanOrToS ss
  | .spanNear cs => do
    let ss ← listToS nm qs df cs
    spanNearToS ss
  | .spanNot inc exc => do
    let s ← toS nm qs df inc
    let t ← toS nm qs df exc
    strfmt nm "span_not(inc:<%s>, exc:<%s>)".toList [.str (some s), .str (some t)]
  | .spanPre f w b => preToS nm df f w b
/-- The loop of bq_to_s, q_boolean.c 1436–1469. -/
def clausesTo {N : Type} (nm : Nums N) (qs : List (Int × List (List Char)) → List (Int × List (List Char))) (df : Option Fld) (first : Bool) : TClauses N → Buf → Res Buf
  | .nil, u => .ok u
  | .cons o q cs, u => do
    let s ← toS nm qs df q
    let u ← clauseTo o q.isBool s first u
    clausesTo nm qs df false cs u
/-- The texts of the clauses of a span query, q_span.c 1818–1822 and 2002–2006. -/
def listToS {N : Type} (nm : Nums N) (qs : List (Int × List (List Char)) → List (Int × List (List Char))) (df : Option Fld) : TList N → Res (List (List Char))
  | .nil => .ok []
  | .cons q cs => do
    let s ← toS nm qs df q
    let ss ← listToS nm qs df cs
    return s :: ss
/-- The functions `to_s` of filters: filt_to_s_i, filter.c 40–43; rfilt_to_s and trfilt_to_s, q_range.c 210–216 and 310–316;
qfilt_to_s, filter.c 96–103. -/
def filterToS {N : Type} (nm : Nums N) (qs : List (Int × List (List Char)) → List (Int × List (List Char))) : TFilter N → Res (List Char)
  | .named n => .ok n
  | .range f lo hi i j => do
    let s ← rangeFilterToS (N := N) f lo hi i j
    strfmt nm "RangeFilter< %s >".toList [.str (some s)]
  | .typed f lo hi i j => do
    let s ← rangeFilterToS (N := N) f lo hi i j
    strfmt nm "TypedRangeFilter< %s >".toList [.str (some s)]
  | .query q => do
    let s ← toS nm qs none q
    strfmt nm "QueryFilter< %s >".toList [.str (some s)]
end

/-- The loop of td_to_s, search.c 215–218: `live` is whether `buffer` still points to memory. estrcat reads it and moves it;
what estrcat returns is dropped. -/
def hitsGo {N : Type} (nm : Nums N) (live : Bool) (txt : List Char) : List (Int × N) → Res (Bool × List Char)
  | [] => .ok (live, txt)
  | (d, s) :: hs => do
    let t ← strfmt nm "\t%d:%f\n".toList [.int d, .dbl s]
    if live then hitsGo nm false (txt ++ t) hs else .ub

/-- td_to_s, search.c 209–220; the caller reads the text. -/
def hitsToS {N : Type} (nm : Nums N) (total : Int) (hits : List (Int × N)) : Res (List Char) := do
  let s ← strfmt nm "%d hits sorted by <score, doc_num>\n".toList [.int total]
  let (live, s) ← hitsGo nm true s hits
  if live then return s else .ub

end Ferret.QText
