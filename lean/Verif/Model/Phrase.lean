import Verif.Model.Scorer
import Verif.Model.Postings
import Verif.Spec.Phrase

/-!
Model of the phrase scorers: `PhPos`, `PhraseScorer`, the exact and the sloppy phrase frequency,
c/src/q_phrase.c:38-533, and of the enumerator of several terms at one phrase position,
`MultipleTermDocPosEnum`, c/src/index.c:3444-3612.

The enumerators behind the function pointers of a `TermDocEnum` are a state `ε` with a record
`TdeOps ε` of functions. Two are given: `Tde`, a cursor over the documents of one term (what C22 and
C24 prove the enumerators of a segment and of several segments to be), and `Mtdpe`.

Simplifications.
* Document numbers, positions and offsets are unbounded integers: the differences in `pp_cmp`,
  `pp_pos_cmp` and `icmp_risky` do not overflow.
* `qsort` leaves the order of equal elements open. The sort of the phrase positions is a parameter `qs`
  of the functions, and the theorems hold for every function that permutes and orders.
* The exact frequency is a natural number (the C float adds 1.0 each time: exact up to 2^24). The sloppy
  frequency is the list of the match lengths that are scored; the C code sums
  `sim_sloppy_freq(length) = 1/(length + 1)`, which is positive, so the sum is 0.0 iff the list is empty.
* `PhPos` objects are referred to by their index in `phrase_pos`; the queue of the sloppy scorer holds
  indices. A closed enumerator (`tpe = NULL`) is `none`, using it is `.ub` (`assert`, or a NULL pointer).
* `left` is not in the C code: a bound used only as fuel of a loop, whose exhaustion is `.ub`.
-/

namespace Ferret.Phrase

open Ferret.Post (Posting)

variable {ε F S : Type}

/-- The function pointers of a `TermDocEnum` that are used here, c/include/index.h:472-484. -/
structure TdeOps (ε : Type) where
  next : ε → Res (Bool × ε)
  skipTo : ε → Int → Res (Bool × ε)
  doc : ε → Int
  freq : ε → Int
  nextPosition : ε → Res (Int × ε)
  left : ε → Nat

/-! ### The documents of one term -/

/-- The current document and frequency, its positions not yet read, and the documents not yet seen
(stde and stpe, c/src/index.c:2870-3112, as C22 describes them). -/
structure Tde where
  doc : Int
  freq : Int
  left : List Int
  rest : List Posting
  deriving DecidableEq

/-- `term_positions` after `seek` on a term with these documents. -/
def Tde.new (ps : List Posting) : Tde := ⟨0, 0, [], ps⟩

/-- `next` (C22: `PCur.step`). -/
def tdeNext (t : Tde) : Bool × Tde :=
  match t.rest with
  | [] => (false, { t with left := [] })
  | p :: rest => (true, ⟨p.doc, p.freq, p.occ, rest⟩)

/-- `skip_to` (C22: `PCur.step`). -/
def tdeSkipTo (t : Tde) (n : Int) : Bool × Tde :=
  tdeNext { t with rest := t.rest.dropWhile fun p => decide ((p.doc : Int) < n) }

/-- `next_position` (C22: `PCur.step`; −1 after the last). -/
def tdeNextPosition (t : Tde) : Int × Tde :=
  match t.left with
  | [] => (-1, t)
  | x :: l => (x, { t with left := l })

def tdeOps : TdeOps Tde where
  next t := .ok (tdeNext t)
  skipTo t n := .ok (tdeSkipTo t n)
  doc t := t.doc
  freq t := t.freq
  nextPosition t := .ok (tdeNextPosition t)
  left t := t.rest.length

/-! ### MultipleTermDocPosEnum -/

/-- `MultipleTermDocPosEnum`, c/src/index.c:3453-3463. `queue` are the first `freq` cells of `pos_queue`
(its capacity grows before a cell is written, 3504-3509). -/
structure Mtdpe where
  pq : PQ.PQ Tde
  doc : Int
  freq : Int
  queue : List Int
  index : Nat

/-- `tdpe_less_than`, c/src/index.c:3535-3538. -/
def tdpeLt (a b : Tde) : Bool := decide (a.doc < b.doc)

/-- Insertion into an ordered list. -/
def insertInt (x : Int) : List Int → List Int
  | [] => [x]
  | y :: l => if x ≤ y then x :: y :: l else y :: insertInt x l

/-- `qsort` of integers by `icmp_risky`, c/src/index.c:3526: the ordered list. -/
def sortInts (l : List Int) : List Int := l.foldr insertInt []

/-- `n` calls of `next_position`, the loop c/src/index.c:3512-3514. -/
def takePositions : Nat → Tde → List Int × Tde
  | 0, t => ([], t)
  | n + 1, t => let r := tdeNextPosition t; let s := takePositions n r.2; (r.1 :: s.1, s.2)

/-- The loop of `mtdpe_next`, c/src/index.c:3502-3524: `t` is the top of the queue. -/
def mtdpeLoop (doc : Int) : Nat → PQ.PQ Tde → Tde → Int → List Int → Res (PQ.PQ Tde × Int × List Int)
  | 0, _, _, _, _ => .ub
  | fuel + 1, q, t, freq, queue =>
    let f := freq + t.freq
    let p := takePositions (f - queue.length).toNat t
    let r := tdeNext p.2
    (if r.1 then PQ.down tdpeLt (q.heap.set 0 r.2) >>= fun h => .ok { q with heap := h }
     else PQ.pop tdpeLt q >>= fun x => .ok x.2) >>= fun q' =>
    match PQ.top q' with
    | some t' => if t'.doc = doc then mtdpeLoop doc fuel q' t' f (queue ++ p.1) else .ok (q', f, queue ++ p.1)
    | none => .ok (q', f, queue ++ p.1)

/-- Documents left in the sub-enumerators. -/
def heapLeft (h : List Tde) : Nat := (h.map fun t => t.rest.length + 1).sum

/-- `mtdpe_next`, c/src/index.c:3488-3533. -/
def mtdpeNext (m : Mtdpe) : Res (Bool × Mtdpe) :=
  match PQ.top m.pq with
  | none => .ok (false, m)
  | some t => mtdpeLoop t.doc (heapLeft m.pq.heap + 1) m.pq t 0 [] >>= fun r =>
    .ok (true, ⟨r.1, t.doc, r.2.1, sortInts r.2.2, 0⟩)

/-- The loop of `mtdpe_skip_to`, c/src/index.c:3545-3554. -/
def mtdpeSkipLoop (n : Int) : Nat → PQ.PQ Tde → Res (PQ.PQ Tde)
  | 0, _ => .ub
  | fuel + 1, q =>
    match PQ.top q with
    | none => .ok q
    | some t => if n > t.doc then
        let r := tdeSkipTo t n
        (if r.1 then PQ.down tdpeLt (q.heap.set 0 r.2) >>= fun h => .ok { q with heap := h }
         else PQ.pop tdpeLt q >>= fun x => .ok x.2) >>= mtdpeSkipLoop n fuel
      else .ok q

/-- `mtdpe_skip_to`, c/src/index.c:3540-3556. -/
def mtdpeSkipTo (m : Mtdpe) (n : Int) : Res (Bool × Mtdpe) :=
  mtdpeSkipLoop n (heapLeft m.pq.heap + 1) m.pq >>= fun q => mtdpeNext { m with pq := q }

/-- `mtdpe_next_position`, c/src/index.c:3568-3571: past the last is a cell never written, or outside. -/
def mtdpeNextPosition (m : Mtdpe) : Res (Int × Mtdpe) :=
  Res.ofOption m.queue[m.index]? >>= fun x => .ok (x, { m with index := m.index + 1 })

/-- `mtdpe_new`, c/src/index.c:3581-3612: the terms' documents, in the order of the terms. -/
def mtdpeNew (terms : List (List Posting)) : Res Mtdpe :=
  let rec push : List (List Posting) → PQ.PQ Tde → Res (PQ.PQ Tde)
    | [], q => .ok q
    | ps :: l, q =>
      let r := tdeNext (Tde.new ps)
      if r.1 then PQ.push tdpeLt q r.2 >>= push l else push l q
  push terms (PQ.new terms.length) >>= fun q => .ok ⟨q, 0, 0, [], 0⟩

def mtdpeOps : TdeOps Mtdpe where
  next := mtdpeNext
  skipTo := mtdpeSkipTo
  doc m := m.doc
  freq m := m.freq
  nextPosition := mtdpeNextPosition
  left m := heapLeft m.pq.heap

/-- One term or several at a phrase position, c/src/q_phrase.c:565-571. -/
def anyOps : TdeOps (Tde ⊕ Mtdpe) where
  next
    | .inl t => .ok ((tdeNext t).1, .inl (tdeNext t).2)
    | .inr m => mtdpeNext m >>= fun r => .ok (r.1, .inr r.2)
  skipTo
    | .inl t, n => .ok ((tdeSkipTo t n).1, .inl (tdeSkipTo t n).2)
    | .inr m, n => mtdpeSkipTo m n >>= fun r => .ok (r.1, .inr r.2)
  doc
    | .inl t => t.doc
    | .inr m => m.doc
  freq
    | .inl t => t.freq
    | .inr m => m.freq
  nextPosition
    | .inl t => .ok ((tdeNextPosition t).1, .inl (tdeNextPosition t).2)
    | .inr m => mtdpeNextPosition m >>= fun r => .ok (r.1, .inr r.2)
  left
    | .inl t => t.rest.length
    | .inr m => heapLeft m.pq.heap

/-! ### PhPos -/

/-- `PhPos`, c/src/q_phrase.c:43-50. -/
structure PhPos (ε : Type) where
  tpe : Option ε
  offset : Int
  count : Int
  doc : Int
  position : Int

/-- `pp_new`, c/src/q_phrase.c:146-155. -/
def PhPos.new (e : ε) (offset : Int) : PhPos ε := ⟨some e, offset, -1, -1, -1⟩

/-- The sentinel INT_MAX. -/
def intMax : Int := 2147483647

/-- What `pp_next` and `pp_skip_to` do with the outcome of the enumerator. -/
def ppMoved (o : TdeOps ε) (p : PhPos ε) (r : Bool × ε) : Bool × PhPos ε :=
  if r.1 then (true, { p with tpe := some r.2, doc := o.doc r.2, position := 0 })
  else (false, { p with tpe := none, doc := intMax })

/-- `pp_next`, c/src/q_phrase.c:52-66. -/
def ppNext (o : TdeOps ε) (p : PhPos ε) : Res (Bool × PhPos ε) :=
  Res.ofOption p.tpe >>= fun e => o.next e >>= fun r => .ok (ppMoved o p r)

/-- `pp_skip_to`, c/src/q_phrase.c:68-82. -/
def ppSkipTo (o : TdeOps ε) (p : PhPos ε) (n : Int) : Res (Bool × PhPos ε) :=
  Res.ofOption p.tpe >>= fun e => o.skipTo e n >>= fun r => .ok (ppMoved o p r)

/-- `pp_next_position`, c/src/q_phrase.c:84-95. -/
def ppNextPosition (o : TdeOps ε) (p : PhPos ε) : Res (Bool × PhPos ε) :=
  if 0 ≤ p.count - 1 then
    Res.ofOption p.tpe >>= fun e => o.nextPosition e >>= fun r =>
      .ok (true, { p with count := p.count - 1, tpe := some r.2, position := r.1 - p.offset })
  else .ok (false, { p with count := p.count - 1 })

/-- `pp_first_position`, c/src/q_phrase.c:97-102. -/
def ppFirstPosition (o : TdeOps ε) (p : PhPos ε) : Res (Bool × PhPos ε) :=
  Res.ofOption p.tpe >>= fun e => ppNextPosition o { p with count := o.freq e }

/-- `pp_cmp(a, b) <= 0`, c/src/q_phrase.c:112-121. -/
def ppLe (a b : PhPos ε) : Bool := decide (a.doc < b.doc ∨ a.doc = b.doc ∧ a.position ≤ b.position)

/-- `pp_pos_cmp(a, b) <= 0`, c/src/q_phrase.c:123-126. -/
def ppPosLe (a b : PhPos ε) : Bool := decide (a.position ≤ b.position)

/-- `pp_less_than`, c/src/q_phrase.c:128-136. -/
def ppLt (a b : PhPos ε) : Bool :=
  if a.position = b.position then decide (a.offset < b.offset) else decide (a.position < b.position)

/-- `NEXT_NUM` and `PREV_NUM`, c/include/global.h:65-66. -/
def nextNum (i n : Nat) : Nat := (i + 1) % n
def prevNum (i n : Nat) : Nat := (i + n - 1) % n

/-- `qsort` of the array of phrase positions by a comparison. -/
abbrev QSort (ε : Type) := (PhPos ε → PhPos ε → Bool) → List (PhPos ε) → List (PhPos ε)

/-! ### The exact phrase frequency -/

/-- The loop `do … while (first->position < last->position)`, c/src/q_phrase.c:387-393. -/
def advance (o : TdeOps ε) (target : Int) : Nat → PhPos ε → Res (Bool × PhPos ε)
  | 0, _ => .ub
  | fuel + 1, p => ppNextPosition o p >>= fun r =>
    if r.1 then (if r.2.position < target then advance o target fuel r.2 else .ok (true, r.2)) else .ok (false, r.2)

/-- The loops of `ephsc_phrase_freq`, c/src/q_phrase.c:384-404; `first` is at `idx`, `last` before it. -/
def ephLoop (o : TdeOps ε) : Nat → List (PhPos ε) → Nat → Nat → Res (Nat × List (PhPos ε) × Nat)
  | 0, _, _, _ => .ub
  | fuel + 1, ps, idx, freq =>
    Res.ofOption ps[idx]? >>= fun first => Res.ofOption ps[prevNum idx ps.length]? >>= fun last =>
    if first.position < last.position then
      advance o last.position (first.count.toNat + 1) first >>= fun r =>
        if r.1 then ephLoop o fuel (ps.set idx r.2) (nextNum idx ps.length) freq
        else .ok (freq, ps.set idx r.2, idx)
    else
      ppNextPosition o last >>= fun r =>
        if r.1 then ephLoop o fuel (ps.set (prevNum idx ps.length) r.2) idx (freq + 1)
        else .ok (freq + 1, ps.set (prevNum idx ps.length) r.2, idx)

/-- The loop c/src/q_phrase.c:375-377. -/
def firstPositions (o : TdeOps ε) : List (PhPos ε) → Res (List (PhPos ε))
  | [] => .ok []
  | p :: l => ppFirstPosition o p >>= fun r => firstPositions o l >>= fun l' => .ok (r.2 :: l')

/-- Positions left. -/
def posLeft (ps : List (PhPos ε)) : Nat := (ps.map fun p => p.count.toNat).sum

/-- `ephsc_phrase_freq`, c/src/q_phrase.c:364-404: the frequency, the array and `pp_first_idx`. -/
def ephFreq (o : TdeOps ε) (qs : QSort ε) (ps : List (PhPos ε)) (_idx : Nat) : Res (Nat × List (PhPos ε) × Nat) :=
  firstPositions o ps >>= fun ps => ephLoop o (posLeft ps + 1) (qs ppPosLe ps) 0 0

/-! ### The sloppy phrase frequency -/

/-- `sphsc_check_repeats(pp, positions, p_cnt)`, c/src/q_phrase.c:427-452: `i` is the index of `pp`. One
round looks for a position among the first `cnt` that is on the same word; then `pp` moves on. -/
def checkRepeats (o : TdeOps ε) (cnt i : Nat) : Nat → List (PhPos ε) → Res (Bool × List (PhPos ε))
  | 0, _ => .ub
  | fuel + 1, ps =>
    if ps.length < cnt then .ub else
    Res.ofOption ps[i]? >>= fun pp =>
    if (ps.take cnt).any fun q => decide (q.offset ≠ pp.offset ∧ q.position + q.offset = pp.position + pp.offset) then
      ppNextPosition o pp >>= fun r =>
        if r.1 then checkRepeats o cnt i fuel (ps.set i r.2) else .ok (false, ps.set i r.2)
    else .ok (true, ps)

/-- `pp_less_than` of two entries of the queue. (Indices outside the array are not in the queue; the second
case makes this an order on all numbers.) -/
def idxLt (ps : List (PhPos ε)) (i j : Nat) : Bool :=
  match ps[i]?, ps[j]? with
  | some a, some b => ppLt a b
  | some _, none => true
  | none, _ => false

/-- The check at c/src/q_phrase.c:473-477 (`i - 1`, not `i`) and 491-492. -/
def checked (o : TdeOps ε) (check : Bool) (cnt i : Nat) (ps : List (PhPos ε)) : Res (Bool × List (PhPos ε)) :=
  if check then Res.ofOption ps[i]? >>= fun pp => checkRepeats o cnt i (pp.count.toNat + 1) ps else .ok (true, ps)

/-- The loop c/src/q_phrase.c:466-482, for the indices from `i` on. `none`: `goto return_freq`. -/
def sphInit (o : TdeOps ε) (check : Bool) : Nat → Nat → List (PhPos ε) → PQ.PQ Nat → Int → Res (List (PhPos ε) × Option (PQ.PQ Nat × Int))
  | 0, _, ps, q, last => .ok (ps, some (q, last))
  | n + 1, i, ps, q, last =>
    Res.ofOption ps[i]? >>= fun p => ppFirstPosition o p >>= fun r =>
    checked o (check && decide (0 < i)) (i - 1) i (ps.set i r.2) >>= fun c =>
    if c.1 then
      Res.ofOption c.2[i]? >>= fun p =>
      PQ.push (idxLt c.2) q i >>= fun q => sphInit o check n (i + 1) c.2 q (if p.position > last then p.position else last)
    else .ok (c.2, none)

/-- The loop `while (pos <= next_pos)`, c/src/q_phrase.c:488-497, for the position at `i`; gives `done`,
`start` and the array. -/
def sphAdvance (o : TdeOps ε) (check : Bool) (nextPos : Int) (i : Nat) : Nat → Int → List (PhPos ε) → Res (Bool × Int × List (PhPos ε))
  | 0, _, _ => .ub
  | fuel + 1, start, ps =>
    Res.ofOption ps[i]? >>= fun p =>
    if p.position ≤ nextPos then
      ppNextPosition o p >>= fun r =>
      if r.1 then
        checked o check ps.length i (ps.set i r.2) >>= fun c =>
        if c.1 then sphAdvance o check nextPos i fuel p.position c.2 else .ok (true, p.position, c.2)
      else .ok (true, p.position, ps.set i r.2)
    else .ok (false, start, ps)

/-- The loop c/src/q_phrase.c:484-509. `freq` collects the match lengths scored. -/
def sphLoop (o : TdeOps ε) (check : Bool) (slop : Int) : Nat → List (PhPos ε) → PQ.PQ Nat → Int → List Int → Res (List Int × List (PhPos ε))
  | 0, _, _, _, _ => .ub
  | fuel + 1, ps, q, last, freq =>
    PQ.pop (idxLt ps) q >>= fun x =>
    Res.ofOption x.1 >>= fun i => Res.ofOption ps[i]? >>= fun p =>
    Res.ofOption (PQ.top x.2) >>= fun j => Res.ofOption ps[j]? >>= fun nxt =>
    sphAdvance o check nxt.position i (p.count.toNat + 2) p.position ps >>= fun r =>
    Res.ofOption r.2.2[i]? >>= fun p' =>
    let freq' := if last - r.2.1 ≤ slop then freq ++ [last - r.2.1] else freq
    PQ.push (idxLt r.2.2) x.2 i >>= fun q' =>
    if r.1 then .ok (freq', r.2.2)
    else sphLoop o check slop fuel r.2.2 q' (if p'.position > last then p'.position else last) freq'

/-- `sphsc_phrase_freq`, c/src/q_phrase.c:454-515. -/
def sphFreq (o : TdeOps ε) (check : Bool) (slop : Int) (ps : List (PhPos ε)) (idx : Nat) : Res (List Int × List (PhPos ε) × Nat) :=
  sphInit o check ps.length 0 ps (PQ.new ps.length) 0 >>= fun r =>
  match r.2 with
  | none => .ok ([], r.1, idx)
  | some x => sphLoop o check slop (posLeft r.1 + 1) r.1 x.1 x.2 [] >>= fun s => .ok (s.1, s.2, idx)

/-! ### PhraseScorer -/

/-- `PhraseScorer`, c/src/q_phrase.c:163-178; `freq` is `none` before the first match. `tfw` and `norm` are
`sim_tf(freq) * value` and the decoded norm of a document. -/
structure PhSc (ε F S : Type) where
  pps : List (PhPos ε)
  idx : Nat
  more : Bool
  firstTime : Bool
  doc : Int
  freq : Option F
  tfw : F → S
  norm : Int → S

/-- `phrase_freq` of the scorer: the frequency, the array and `pp_first_idx`. -/
abbrev Freq (ε F : Type) := List (PhPos ε) → Nat → Res (F × List (PhPos ε) × Nat)

/-- `phsc_new`, c/src/q_phrase.c:305-358: the enumerators and their offsets. -/
def PhSc.new (tfw : F → S) (norm : Int → S) (es : List (ε × Int)) : PhSc ε F S :=
  ⟨es.map fun e => PhPos.new e.1 e.2, 0, true, true, 0, none, tfw, norm⟩

/-- The loops c/src/q_phrase.c:183-185 and 268-272: `f` on each, from the last to the first, until one
fails. -/
def downTo (f : PhPos ε → Res (Bool × PhPos ε)) : List (PhPos ε) → Res (Bool × List (PhPos ε))
  | [] => .ok (true, [])
  | p :: l => downTo f l >>= fun r =>
    if r.1 then f p >>= fun x => .ok (x.1, x.2 :: r.2) else .ok (false, p :: r.2)

/-- `phsc_init`, c/src/q_phrase.c:180-192, and the beginning of `phsc_skip_to`, 267-278. Without positions
the loop does not set `more`. -/
def phInit (qs : QSort ε) (f : PhPos ε → Res (Bool × PhPos ε)) (s : PhSc ε F S) : Res (PhSc ε F S) :=
  downTo f s.pps >>= fun r =>
  let more := if s.pps.isEmpty then s.more else r.1
  .ok (if more then { s with pps := qs ppLe r.2, idx := 0, more := true } else { s with pps := r.2, more := false })

/-- `phsc_do_next`, c/src/q_phrase.c:194-236, from an index; the array entries are `first` and `last`. -/
def doNext (o : TdeOps ε) (pf : Freq ε F) (zero : F → Bool) : Nat → Nat → PhSc ε F S → Res (Bool × PhSc ε F S)
  | 0, _, _ => .ub
  | fuel + 1, idx, s =>
    if s.more then
      Res.ofOption s.pps[idx]? >>= fun first => Res.ofOption s.pps[prevNum idx s.pps.length]? >>= fun last =>
      if first.doc < last.doc then
        ppSkipTo o first last.doc >>= fun r =>
          doNext o pf zero fuel (nextNum idx s.pps.length) { s with pps := s.pps.set idx r.2, more := r.1 }
      else
        pf s.pps idx >>= fun r =>
        if zero r.1 then
          Res.ofOption r.2.1[prevNum r.2.2 r.2.1.length]? >>= fun last => ppNext o last >>= fun x =>
            doNext o pf zero fuel r.2.2 { s with freq := some r.1, pps := r.2.1.set (prevNum r.2.2 r.2.1.length) x.2, idx := r.2.2, more := x.1 }
        else .ok (true, { s with freq := some r.1, pps := r.2.1, idx := r.2.2, doc := first.doc })
    else .ok (false, s)

/-- Documents left in the enumerators. -/
def docsLeft (o : TdeOps ε) (ps : List (PhPos ε)) : Nat := (ps.map fun p => match p.tpe with | some e => o.left e | none => 0).sum

def phDoNext (o : TdeOps ε) (pf : Freq ε F) (zero : F → Bool) (s : PhSc ε F S) : Res (Bool × PhSc ε F S) :=
  doNext o pf zero (docsLeft o s.pps + 2) s.idx s

/-- `phsc_next`, c/src/q_phrase.c:248-262. -/
def phNext (o : TdeOps ε) (qs : QSort ε) (pf : Freq ε F) (zero : F → Bool) (s : PhSc ε F S) : Res (Bool × PhSc ε F S) :=
  if s.firstTime then
    phInit qs (ppNext o) s >>= fun s => phDoNext o pf zero { s with firstTime := false }
  else if s.more then
    Res.ofOption s.pps[prevNum s.idx s.pps.length]? >>= fun last => ppNext o last >>= fun x =>
      phDoNext o pf zero { s with pps := s.pps.set (prevNum s.idx s.pps.length) x.2, more := x.1 }
  else phDoNext o pf zero s

/-- `phsc_skip_to`, c/src/q_phrase.c:264-280. -/
def phSkipTo (o : TdeOps ε) (qs : QSort ε) (pf : Freq ε F) (zero : F → Bool) (s : PhSc ε F S) (n : Int) : Res (Bool × PhSc ε F S) :=
  phInit qs (fun p => ppSkipTo o p n) s >>= phDoNext o pf zero

/-- `phsc_score`, c/src/q_phrase.c:238-246. -/
def phScore (A : Scorer.Arith S) (s : PhSc ε F S) : Res (S × Nat × PhSc ε F S) :=
  Res.ofOption s.freq >>= fun f => .ok (A.mul (s.tfw f) (s.norm s.doc), 0, s)

/-- The function pointers set in `phsc_new`, c/src/q_phrase.c:351-355. -/
def phraseOps (A : Scorer.Arith S) (o : TdeOps ε) (qs : QSort ε) (pf : Freq ε F) (zero : F → Bool) : Scorer.Ops (PhSc ε F S) S where
  next := phNext o qs pf zero
  skipTo := phSkipTo o qs pf zero
  score := phScore A
  doc s := s.doc
  left s := docsLeft o s.pps

/-- `exact_phrase_scorer_new`, c/src/q_phrase.c:406-421. -/
def exactOps (A : Scorer.Arith S) (o : TdeOps ε) (qs : QSort ε) : Scorer.Ops (PhSc ε Nat S) S :=
  phraseOps A o qs (ephFreq o qs) (fun f => decide (f = 0))

/-- `sloppy_phrase_scorer_new`, c/src/q_phrase.c:517-533. -/
def sloppyOps (A : Scorer.Arith S) (o : TdeOps ε) (qs : QSort ε) (check : Bool) (slop : Int) : Scorer.Ops (PhSc ε (List Int) S) S :=
  phraseOps A o qs (sphFreq o check slop) (fun f => decide (f = []))

/-- Do two phrase positions share a term, or one position a term twice? c/src/q_phrase.c:328-343. -/
def repeats {T : Type} [DecidableEq T] (terms : List (List T)) : Bool := decide (¬ terms.flatten.Nodup)

/-! ### PhraseQuery -/

/-- `PhraseQuery`, c/include/search.h:318-326, without the field: the positions (`PhrasePosition`: terms and
`pos`) and `slop`. -/
structure PhQ (T : Type) where
  parts : List (Spec.PhrasePart T)
  slop : Int
  deriving DecidableEq, Repr

variable {T : Type}

/-- `phq_add_term_abs`, c/src/q_phrase.c:1160-1174. -/
def PhQ.addTermAbs (q : PhQ T) (t : T) (pos : Int) : PhQ T := { q with parts := q.parts ++ [⟨[t], pos⟩] }

/-- `phq_add_term`, c/src/q_phrase.c:1176-1187. -/
def PhQ.addTerm (q : PhQ T) (t : T) (inc : Int) : PhQ T :=
  match q.parts.getLast? with
  | none => q.addTermAbs t 0
  | some l => q.addTermAbs t (l.offset + inc)

/-- `phq_append_multi_term`, c/src/q_phrase.c:1189-1200. -/
def PhQ.appendMulti (q : PhQ T) (t : T) : PhQ T :=
  match q.parts.getLast? with
  | none => q.addTerm t 0
  | some l => { q with parts := q.parts.dropLast ++ [{ l with terms := l.terms ++ [t] }] }

/-- The enumerator of a phrase position, c/src/q_phrase.c:563-571; `ix t`: the documents of the term. -/
def partEnum (ix : T → List Posting) (x : Spec.PhrasePart T) : Res (Tde ⊕ Mtdpe) :=
  match x.terms with
  | [t] => .ok (.inl (Tde.new (ix t)))
  | ts => mtdpeNew (ts.map ix) >>= fun m => .ok (.inr m)

/-- The loop c/src/q_phrase.c:562-574. -/
def partEnums (ix : T → List Posting) : List (Spec.PhrasePart T) → Res (List ((Tde ⊕ Mtdpe) × Int))
  | [] => .ok []
  | x :: l => partEnum ix x >>= fun e => partEnums ix l >>= fun es => .ok ((e, x.offset) :: es)

/-- `phw_scorer`, c/src/q_phrase.c:546-588, in an index with the field; `none`: NULL. The caller calls the scorer
with `exactOps` if the slop is 0 and with `sloppyOps` otherwise. -/
def phwScorer (ix : T → List Posting) (tfw : F → S) (norm : Int → S) (q : PhQ T) : Res (Option (PhSc (Tde ⊕ Mtdpe) F S)) :=
  if q.parts.isEmpty then .ok none else partEnums ix q.parts >>= fun es => .ok (some (PhSc.new tfw norm es))

end Ferret.Phrase
