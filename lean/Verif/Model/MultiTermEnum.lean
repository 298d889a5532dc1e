import Verif.Model.TermDict
import Verif.Model.PriorityQueue

/-!
The enumerator of the terms of several segments, index.c 2379–2609, and the document frequency over
several segments, index.c 4831–4843.

Simplifications: the sub readers are segment readers (`Sub` is what their enumerators read); a wrapper
is in the queue as its term and its index, as it is never changed while it is in it (tew->term points
at the enumerator's buffer, which only changes in next and skip_to); frequencies do not overflow.
-/

namespace Ferret.MTE
open Ferret Ferret.Expand Ferret.Dict

/-- What the enumerator of a sub reader reads: its field index and the file of terms. -/
structure Sub where
  sfi : SFI
  tis : List Byte

/-- MultiReader, index.h 838–848, as far as it is used here: `map` is field_num_map. -/
structure MR where
  subs : List Sub
  map : Option (List (List Int))

/-- mr_get_field_num, index.c 4761–4769, and index.c 2504–2506; outside the table is undefined. -/
def fieldNum (mr : MR) (i : Nat) (f : Int) : Res Int :=
  match mr.map with
  | none => .ok f
  | some m => if f < 0 then .ub else Res.ofOption (m[i]?.bind fun r => r[f.toNat]?)

/-- MultiTermEnum, index.c 2390–2401: the enumerators of the wrappers, the queue, curr_term, the
frequency in curr_ti, and the `ti_cnt` first elements of ti_indexes and tis. -/
structure MTE where
  tes : List STE
  q : PQ.PQ (Term × Nat)
  term : Term
  docFreq : Nat
  tis : List (Nat × TI)

/-- tew_lt, index.c 2403–2412. -/
def tewLt (a b : Term × Nat) : Bool :=
  let c := strcmp a.1 b.1
  if c = 0 then decide (a.2 < b.2) else decide (c < 0)

/-- pq_push of a wrapper, if it has a term. -/
def pushTerm (q : PQ.PQ (Term × Nat)) (o : Option Term) (i : Nat) : Res (PQ.PQ (Term × Nat)) :=
  match o with
  | none => .ok q
  | some t => PQ.push tewLt q (t, i)

/-- The loop of mte_next, index.c 2481–2490; ti_indexes and tis have as many elements as there are sub
readers. -/
def nextLoop (mr : MR) : Nat → MTE → Res MTE
  | 0, _ => .ub
  | fuel + 1, m =>
    match PQ.top m.q with
    | none => .ok m
    | some top =>
      if strcmp m.term top.1 = 0 then
        PQ.pop tewLt m.q >>= fun p =>
        if m.tis.length ≥ mr.subs.length then .ub
        else Res.ofOption mr.subs[top.2]? >>= fun s => Res.ofOption m.tes[top.2]? >>= fun e =>
          steNext s.sfi.skipInterval e >>= fun r => pushTerm p.2 r.2 top.2 >>= fun q =>
          nextLoop mr fuel { m with tes := m.tes.set top.2 r.1, q := q, docFreq := m.docFreq + e.ti.docFreq, tis := m.tis ++ [(top.2, e.ti)] }
      else .ok m

/-- mte_next, index.c 2463–2492. At most as many wrappers as are in the queue are taken from it. -/
def mteNext (mr : MR) (m : MTE) : Res (MTE × Option Term) :=
  match PQ.top m.q with
  | none => .ok ({ m with term := [] }, none)
  | some top => nextLoop mr (m.q.heap.length + 1) { m with term := top.1, docFreq := 0, tis := [] } >>= fun m => .ok (m, some m.term)

/-- The loops over the wrappers in index.c 2501–2519, 2530–2536 and 2575–2602: each enumerator is
moved, and if it gives a term the wrapper is pushed on the queue. -/
def eachSub (act : Nat → Sub → STE → Res (STE × Option Term)) : Nat → List Sub → List STE → PQ.PQ (Term × Nat) → Res (List STE × PQ.PQ (Term × Nat))
  | i, s :: ss, e :: es, q => act i s e >>= fun r => pushTerm q r.2 i >>= fun q => eachSub act (i + 1) ss es q >>= fun x => .ok (r.1 :: x.1, x.2)
  | _, _, _, q => .ok ([], q)

/-- One round of the loop of mte_set_field, index.c 2504–2517. -/
def setAct (mr : MR) (f : Int) (i : Nat) (s : Sub) (e : STE) : Res (STE × Option Term) :=
  fieldNum mr i f >>= fun n =>
  if n ≥ 0 then steNext s.sfi.skipInterval (steSetField s.sfi e n) else .ok ({ e with field := -1 }, none)

/-- mte_set_field, index.c 2494–2521. -/
def mteSetField (mr : MR) (m : MTE) (f : Int) : Res MTE :=
  eachSub (setAct mr f) 0 mr.subs m.tes { m.q with heap := [] } >>= fun r => .ok { m with tes := r.1, q := r.2 }

/-- One round of the loop of mte_skip_to, index.c 2533. -/
def skipAct (t : Term) (_ : Nat) (s : Sub) (e : STE) : Res (STE × Option Term) :=
  if e.field ≥ 0 then scanTo s.sfi e t else .ok (e, none)

/-- mte_skip_to, index.c 2523–2538. -/
def mteSkipTo (mr : MR) (m : MTE) (t : Term) : Res (MTE × Option Term) :=
  eachSub (skipAct t) 0 mr.subs m.tes { m.q with heap := [] } >>= fun r => mteNext mr { m with tes := r.1, q := r.2 }

/-- One round of the loop of mte_new, index.c 2576–2601, with sr_terms and sr_terms_from, index.c
4519–4533: with a term, the wrapper is pushed if the enumerator's current term is not empty. -/
def newAct (mr : MR) (f : Int) (term : Option Term) (i : Nat) (s : Sub) (e : STE) : Res (STE × Option Term) :=
  fieldNum mr i f >>= fun n =>
  if n ≥ 0 then
    match term with
    | none => steNext s.sfi.skipInterval (steSetField s.sfi e n)
    | some t => scanTo s.sfi (steSetField s.sfi e n) t >>= fun r => .ok (r.1, if r.1.term = [] then none else some r.1.term)
  else .ok ({ steSetField s.sfi e 0 with field := -1 }, none)

/-- mte_new, index.c 2554–2609. -/
def mteNew (mr : MR) (f : Int) (term : Option Term) : Res MTE :=
  eachSub (newAct mr f term) 0 mr.subs (mr.subs.map fun s => steNew s.tis) (PQ.new mr.subs.length) >>= fun r =>
  let m : MTE := ⟨r.1, r.2, [], 0, []⟩
  if term.isSome ∧ m.q.heap.length > 0 then mteNext mr m >>= fun r => .ok r.1 else .ok m

/-- sr_doc_freq, index.c 4535–4539. -/
def srDocFreq (s : Sub) (r : TIR) (f : Int) (t : Term) : Res (TIR × Nat) :=
  tirGetTi s.sfi s.tis (tirSetField s.sfi s.tis r f) t >>= fun x => .ok (x.1, (x.2.map (·.docFreq)).getD 0)

/-- The loop of mr_doc_freq, index.c 4835–4841: `k` sub readers are left, the last comes first. -/
def docFreqLoop (mr : MR) (f : Int) (t : Term) : Nat → List TIR → Nat → Res (List TIR × Nat)
  | 0, rs, total => .ok (rs, total)
  | k + 1, rs, total => fieldNum mr k f >>= fun n =>
    if n ≥ 0 then
      Res.ofOption mr.subs[k]? >>= fun s => Res.ofOption rs[k]? >>= fun r =>
      srDocFreq s r n t >>= fun x => docFreqLoop mr f t k (rs.set k x.1) (total + x.2)
    else docFreqLoop mr f t k rs total

/-- mr_doc_freq, index.c 4831–4843; `rs` are the lookups of the sub readers. -/
def mrDocFreq (mr : MR) (rs : List TIR) (f : Int) (t : Term) : Res (List TIR × Nat) := docFreqLoop mr f t mr.subs.length rs 0

end Ferret.MTE
