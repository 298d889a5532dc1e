import Verif.Model.PriorityQueue
import Verif.Model.BitVector
import Verif.Spec.Bytes

/-!
Queries over many terms: c/src/q_wildcard.c, q_fuzzy.c, q_prefix.c, q_multi_term.c, q_range.c.
Strings are lists of bytes other than NUL; the end of the list is the NUL.
-/

namespace Ferret.Expand
open Ferret

/-! ### Wildcards -/

/-- The strings from the end of the text back to its beginning. -/
def suffixesFromEnd : List Byte → List (List Byte)
  | [] => [[]]
  | x :: t => suffixesFromEnd t ++ [x :: t]

/-- wc_match, q_wildcard.c 34–79; WILD_CHAR is `?`, WILD_STRING is `*`. -/
def wcMatch : List Byte → List Byte → Bool
  | p, [] => p.all (· == 42)
  | [], _ :: _ => false
  | c :: p, x :: t =>
    if c = 63 then wcMatch p t
    else if c = 42 then (suffixesFromEnd (x :: t)).any fun xt => wcMatch p xt
    else if c ≠ x then false
    else wcMatch p t

/-! ### Fuzzy scores -/

/-- The value of a score: 0, or 1 − num / den. Rounding is not modelled. -/
inductive Score where
  | zero
  | ratio (num den : Nat)
  deriving DecidableEq

def min3 (a b c : Nat) : Nat := if a < b then (if a < c then a else c) else (if b < c then b else c)

/-- The inner loop, q_fuzzy.c 102–105: `left` is d_curr[j], the list begins with d_prev[j]. Fewer
entries than characters is reading past the row: undefined. -/
def rowLoop (c : Byte) : Nat → List Nat → List Byte → Res (List Nat)
  | _, _, [] => .ok []
  | left, p :: up :: ps, x :: xs =>
    let v := if c = x then min3 (up + 1) (left + 1) p else min3 up left p + 1
    rowLoop c v (up :: ps) xs >>= fun r => .ok (v :: r)
  | _, _, _ :: _ => .ub

/-- The outer loop, q_fuzzy.c 94–113; `i` rows are done. `none` is the early return of 0. -/
def rows (text : List Byte) (maxd : Int) : Nat → List Nat → List Byte → Res (Option (List Nat))
  | _, row, [] => .ok (some row)
  | i, row, c :: cs =>
    rowLoop c (i + 1) row text >>= fun r =>
    let row' := (i + 1) :: r
    if row'.all (fun d => decide ((d : Int) > maxd)) then .ok none
    else rows text maxd (i + 1) row' cs

/-- fuzq_score_mn, q_fuzzy.c 66–120; `maxd m` is fuzq_get_max_distance 51–56, arithmetic on floats
that is not modelled. -/
def scoreMN (maxd : Nat → Int) (preLen : Nat) (text target : List Byte) : Res Score :=
  if maxd target.length < ((target.length : Int) - text.length).natAbs then .ok .zero
  else rows text (maxd target.length) 0 (List.range (text.length + 1)) target >>= fun r =>
    match r with
    | none => .ok .zero
    | some row => Res.ofOption row[text.length]? >>= fun d => .ok (.ratio d (preLen + min text.length target.length))

/-- fuzq_score, q_fuzzy.c 128–142. -/
def fuzqScore (maxd : Nat → Int) (preLen : Nat) (text target : List Byte) : Res Score :=
  if target.length = 0 ∨ text.length = 0 then
    (if preLen = 0 then .ok .zero else .ok (.ratio (target.length + text.length) preLen))
  else scoreMN maxd preLen text target

/-! ### Terms of the index -/

abbrev Term := List Byte

/-- strcmp(s, t) < 0. -/
def strLt : Term → Term → Bool
  | [], [] => false
  | [], _ :: _ => true
  | _ :: _, [] => false
  | x :: s, y :: t => if x = y then strLt s t else decide (x < y)

/-- strncmp(t, p, strlen(p)) == 0. -/
def strncmpEq : Term → Term → Bool
  | _, [] => true
  | [], _ :: _ => false
  | x :: t, y :: p => x == y && strncmpEq t p

/-- The terms of a field from the first that is not less than `t` (sr_terms_from, index.c 4526–4533;
ste_scan_to 2268–2295, see C20). -/
def termsFrom (terms : List Term) (t : Term) : List Term := terms.dropWhile fun x => strLt x t

/-! ### Multi-term queries -/

/-- Floats, of which only the order matters here, are integers: the float times 2^149. -/
def one : Int := 2 ^ 149

/-- boosted_term_less_than, q_multi_term.c 25–33. -/
def boostedLt (a b : Term × Int) : Bool := if a.2 = b.2 then strLt a.1 b.1 else decide (a.2 < b.2)

/-- MultiTermQuery; multi_tq_new_conf, q_multi_term.c 624–651. -/
structure MTQ where
  terms : PQ.PQ (Term × Int)
  minBoost : Int
  boost : Int

def mtqNew (maxTerms : Nat) (minBoost : Int) : Res MTQ := if maxTerms = 0 then .raise .arg else .ok ⟨PQ.new maxTerms, minBoost, one⟩

/-- multi_tq_add_term_boost, q_multi_term.c 658–668. -/
def mtqAdd (q : MTQ) (t : Term) (b : Int) : Res MTQ :=
  if q.minBoost < b ∧ t ≠ [] then
    PQ.insert boostedLt q.terms (t, b) >>= fun r =>
    if r.1.heap.length = r.1.capa then
      match PQ.top r.1 with
      | none => .ub
      | some top => .ok { q with terms := r.1, minBoost := top.2 }
    else .ok { q with terms := r.1 }
  else .ok q

/-- The loop of prq_rewrite, q_prefix.c 50–55: `cur` is te->curr_term, empty at the end. -/
def prqLoop (pre : Term) : MTQ → Term → List Term → Res MTQ
  | q, cur, rest =>
    if strncmpEq cur pre = false then .ok q
    else mtqAdd q cur one >>= fun q => match rest with
      | [] => .ok q
      | t :: ts => prqLoop pre q t ts
termination_by structural _ _ rest => rest

/-- prq_rewrite, q_prefix.c 36–62; `none`: the index has no such field. -/
def prqRewrite (field : Option (List Term)) (pre : Term) (maxTerms : Nat) (boost : Int) : Res MTQ :=
  mtqNew maxTerms 0 >>= fun q =>
  let q := { q with boost := boost }
  match field with
  | none => .ok q
  | some terms =>
    let r := termsFrom terms pre
    prqLoop pre q (r.headD []) r.tail

/-- The loop of wcq_rewrite, q_wildcard.c 116–124; `pre` is the prefix, `pat` what follows it. -/
def wcqLoop (pre pat : Term) : MTQ → Term → List Term → Res MTQ
  | q, cur, rest =>
    if pre ≠ [] ∧ strncmpEq cur pre = false then .ok q
    else (if wcMatch pat (cur.drop pre.length) then mtqAdd q cur one else .ok q) >>= fun q => match rest with
      | [] => .ok q
      | t :: ts => wcqLoop pre pat q t ts
termination_by structural _ _ rest => rest

/-- What a query is rewritten to. -/
inductive Rewritten where
  | term (t : Term) (boost : Int)
  | multi (q : MTQ)
  | nothing

/-- wcq_rewrite, q_wildcard.c 81–131. The prefix is copied to a buffer of MAX_WORD_SIZE. -/
def wcqRewrite (field : Option (List Term)) (pattern : Term) (maxTerms : Nat) (boost : Int) : Res Rewritten :=
  let pre := pattern.takeWhile fun c => c ≠ 63 ∧ c ≠ 42
  let pat := pattern.dropWhile fun c => c ≠ 63 ∧ c ≠ 42
  if pat = [] then .ok (.term pattern boost)
  else mtqNew maxTerms 0 >>= fun q => match field with
    | none => .ok (.multi q)
    | some terms =>
      if pre.length ≥ 255 then .ub
      else
        let r := termsFrom terms pre
        wcqLoop pre pat q (r.headD []) r.tail >>= fun q => .ok (.multi q)

/-- The loop of fuzq_rewrite, q_fuzzy.c 214–224; `val` is the float of a score. -/
def fuzqLoop (val : Score → Int) (maxd : Nat → Int) (pre text : Term) : MTQ → Term → List Term → Res MTQ
  | q, cur, rest =>
    if pre ≠ [] ∧ strncmpEq cur pre = false then .ok q
    else fuzqScore maxd pre.length text (cur.drop pre.length) >>= fun sc => mtqAdd q cur (val sc) >>= fun q => match rest with
      | [] => .ok q
      | t :: ts => fuzqLoop val maxd pre text q t ts
termination_by structural _ _ rest => rest

/-- fuzq_rewrite, q_fuzzy.c 177–229. Without a prefix the enumeration begins before the first term,
with an empty current term. -/
def fuzqRewrite (val : Score → Int) (maxd : Nat → Int) (field : Option (List Term)) (term : Term) (preLen maxTerms : Nat) (minSim : Int) : Res Rewritten :=
  match field with
  | none => .ok .nothing
  | some terms =>
    if preLen ≥ term.length then .ok (.term term one)
    else mtqNew maxTerms minSim >>= fun q =>
      let pre := term.take preLen
      let r := if preLen > 0 then termsFrom terms pre else [] :: terms
      fuzqLoop val maxd pre (term.drop preLen) q (r.headD []) r.tail >>= fun q => .ok (.multi q)

/-! ### Ranges -/

/-- Range, q_range.c 12–19. -/
structure Range where
  lower : Option Term
  upper : Option Term
  includeLower : Bool
  includeUpper : Bool

/-- range_new, q_range.c 101–134. -/
def rangeNew (r : Range) : Res Range :=
  if r.lower = none ∧ r.upper = none then .raise .arg
  else if r.includeLower = true ∧ r.lower = none then .raise .arg
  else if r.includeUpper = true ∧ r.upper = none then .raise .arg
  else match r.lower, r.upper with
    | some l, some u => if strLt u l = true then .raise .arg else .ok r
    | _, _ => .ok r

/-- Setting the bits of documents. -/
def setDocs : BitVector.BV → List Nat → Res BitVector.BV
  | bv, [] => .ok bv
  | bv, d :: ds => BitVector.set bv d >>= fun bv => setDocs bv ds

/-- strcmp(s, t). -/
def strcmp (s t : Term) : Int := if strLt s t = true then -1 else if strLt t s = true then 1 else 0

/-- The loop of rfilt_get_bv_i, q_range.c 246–269, over the terms and their documents. -/
def rangeLoop (lower : Term) (upper : Option Term) (includeUpper : Bool) : Bool → BitVector.BV → List (Term × List Nat) → Res BitVector.BV
  | _, bv, [] => .ok bv
  | checkLower, bv, (t, docs) :: rest =>
    if checkLower = false ∨ strcmp t lower > 0 then
      (match upper with
      | some u => if strcmp u t ≤ 0 ∧ (includeUpper = false ∨ strcmp u t < 0) then .ok bv
        else setDocs bv docs >>= fun bv => rangeLoop lower upper includeUpper false bv rest
      | none => setDocs bv docs >>= fun bv => rangeLoop lower upper includeUpper false bv rest)
    else rangeLoop lower upper includeUpper checkLower bv rest

/-- rfilt_get_bv_i, q_range.c 218–276; `none`: no such field. -/
def rfiltGetBv (r : Range) (maxDoc : Nat) (field : Option (List (Term × List Nat))) : Res BitVector.BV :=
  let bv := BitVector.newCapa maxDoc
  match field with
  | none => .ok bv
  | some terms => rangeLoop (r.lower.getD []) r.upper r.includeUpper (!(r.includeLower || r.lower.isNone)) bv
      (terms.dropWhile fun x => strLt x.1 (r.lower.getD []))

/-- sscanf(t, "%lg%n"): the number and how many bytes it took; `none` if there is none, and then
nothing is assigned. A double stands as an integer in the same order. -/
abbrev Scan := Term → Option (Int × Nat)

/-- SET_DOCS, q_range.c 330–342. `num` and `len` keep their values when nothing is scanned; `num` is
not initialised at first: `none`. Characters are signed. -/
def typedLoop (scan : Scan) (cond : Int → Bool) : Option Int → Nat → BitVector.BV → List (Term × List Nat) → Res BitVector.BV
  | _, _, bv, [] => .ok bv
  | num, len, bv, (t, docs) :: rest =>
    if (t.headD 0) > 57 ∧ (t.headD 0) < 128 then .ok bv
    else
      let (num, len) := match scan t with
        | some (v, n) => (some v, n)
        | none => (num, len)
      if len = t.length then
        match num with
        | none => .ub
        | some v => if cond v then setDocs bv docs >>= fun bv => typedLoop scan cond num len bv rest
          else typedLoop scan cond num len bv rest
      else typedLoop scan cond num len bv rest

/-- The bounds of trfilt_get_bv_i, q_range.c 348–353: the numbers and `len` when both are numbers. -/
def typedBounds (scan : Scan) (r : Range) : Option (Int × Int × Nat) :=
  let one (t : Option Term) (len : Nat) : Option (Int × Nat) := match t with
    | none => some (0, len)
    | some t => match scan t with
      | some (v, n) => if n = t.length then some (v, n) else none
      | none => none
  match one r.lower 0 with
  | none => none
  | some (l, len) => match one r.upper len with
    | none => none
    | some (u, len) => some (l, u, len)

/-- The conditions of q_range.c 376–413. -/
def typedCond (r : Range) (l u : Int) (v : Int) : Bool :=
  (match r.lower with
  | none => true
  | some _ => if r.includeLower then decide (v ≥ l) else decide (v > l)) &&
  (match r.upper with
  | none => true
  | some _ => if r.includeUpper then decide (v ≤ u) else decide (v < u))

/-- trfilt_get_bv_i, q_range.c 345–423. A scan of nothing answers 0 at the end of the string EOF, which
is taken to be true in the test of the bounds; then `len` is not assigned and the lengths are
compared with the value before: a bound that is empty counts as a number if `len` is 0. This case
is not modelled: an empty bound is not a number here. -/
def trfiltGetBv (scan : Scan) (r : Range) (maxDoc : Nat) (field : Option (List (Term × List Nat))) : Res BitVector.BV :=
  match typedBounds scan r with
  | none => rfiltGetBv r maxDoc field
  | some (l, u, len) =>
    let bv := BitVector.newCapa maxDoc
    match field with
    | none => .ok bv
    | some terms => typedLoop scan (typedCond r l u) none len bv (terms.dropWhile fun x => strLt x.1 [43, 46])

end Ferret.Expand
