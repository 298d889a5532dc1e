import Verif.Model.TermDict
import Verif.Model.BitVector

/-!
The postings of a segment: what dw_flush writes to .frq and .prx (index.c 5281–5321, 5414–5447) and
the enumerators of documents and positions over them (index.c 2881–3221). Streams carry bytes (C08,
C09); an input stream is a file and a position in it. Deletions are a bit vector (C01).
-/

namespace Ferret.Post
open Ferret Ferret.Expand Ferret.Dict

/-! ### Writing -/

/-- Posting, index.c 5190–5204: a document, the number of occurrences and their positions. -/
structure Posting where
  doc : Nat
  freq : Nat
  occ : List Int
  deriving DecidableEq, Repr

/-- SkipBuffer, index.c 5275–5283, without its streams. -/
structure SkipBuf where
  buf : List Byte
  lastDoc : Nat
  lastFrq : Nat
  lastPrx : Nat

/-- skip_buf_reset, index.c 5285–5291. -/
def skipReset (frq prx : List Byte) : SkipBuf := ⟨[], 0, frq.length, prx.length⟩

/-- skip_buf_add, index.c 5302–5314; os_write_vint takes an unsigned int. -/
def skipAdd (b : SkipBuf) (frq prx : List Byte) (doc : Nat) : SkipBuf :=
  ⟨b.buf ++ (vint (toU 4 ((doc : Int) - b.lastDoc)) ++ (vint (toU 4 ((frq.length : Int) - b.lastFrq)) ++ vint (toU 4 ((prx.length : Int) - b.lastPrx)))),
    doc, frq.length, prx.length⟩

/-- What is written to .frq for a document, index.c 5427–5436. -/
def frqBytes (lastDoc : Nat) (p : Posting) : List Byte :=
  let code : Int := ((p.doc : Int) - lastDoc) * 2
  if p.freq = 1 then vint (toU 4 (code + 1)) else vint (toU 4 code) ++ vint p.freq

/-- What is written to .prx for a document, index.c 5438–5442. -/
def prxBytes : Int → List Int → List Byte
  | _, [] => []
  | last, x :: xs => vint (toU 4 (x - last)) ++ prxBytes x xs

/-- The loop over the documents of a term, index.c 5421–5443. The result has doc_freq, the skip
buffer and the two files. -/
def postLoop (si : Nat) : (docFreq lastDoc : Nat) → SkipBuf → (frq prx : List Byte) → List Posting → Nat × SkipBuf × List Byte × List Byte
  | docFreq, _, b, frq, prx, [] => (docFreq, b, frq, prx)
  | docFreq, lastDoc, b, frq, prx, p :: ps =>
    let docFreq := docFreq + 1
    let b := if docFreq % si = 0 then skipAdd b frq prx lastDoc else b
    postLoop si docFreq p.doc b (frq ++ frqBytes lastDoc p) (prx ++ prxBytes 0 p.occ) ps

/-- One term of dw_flush, index.c 5416–5446: the two files and the term's entry in the dictionary.
skip_buf_write 5316–5321 appends the bytes of the skip buffer (ramo_write_to, C09: undefined when
there are 1024, 2048, … of them). -/
def flushTerm (si : Nat) (frq prx : List Byte) (ps : List Posting) : List Byte × List Byte × TI :=
  let r := postLoop si 0 0 (skipReset frq prx) frq prx ps
  (r.2.2.1 ++ r.2.1.buf, r.2.2.2, ⟨r.1, frq.length, prx.length, r.2.2.1.length - frq.length⟩)

/-- The terms of a field, index.c 5414–5447. -/
def flushTerms (si : Nat) : (frq prx : List Byte) → List (Term × List Posting) → List Byte × List Byte × List (Term × TI)
  | frq, prx, [] => (frq, prx, [])
  | frq, prx, (t, ps) :: ts =>
    let r := flushTerm si frq prx ps
    let rest := flushTerms si r.1 r.2.1 ts
    (rest.1, rest.2.1, (t, r.2.2) :: rest.2.2)

/-- The fields, index.c 5401–5448; those that are not indexed or have no documents are left out of
the list. -/
def flushFields (si : Nat) : (frq prx : List Byte) → List (Nat × List (Term × List Posting)) → List Byte × List Byte × List (Nat × List (Term × TI))
  | frq, prx, [] => (frq, prx, [])
  | frq, prx, (f, ts) :: fs =>
    let r := flushTerms si frq prx ts
    let rest := flushFields si r.1 r.2.1 fs
    (rest.1, rest.2.1, (f, r.2.2) :: rest.2.2)

/-- The files of a segment. -/
structure SegFiles where
  frq : List Byte
  prx : List Byte
  dict : Files

/-- dw_flush, index.c 5376–5454, without norms and stored fields. The calls of the dictionary's
writer, which has its own files, come after those of the postings here. -/
def flush (indexInterval si : Nat) (fields : List (Nat × List (Term × List Posting))) : Res SegFiles :=
  if si = 0 then .ub
  else
    let r := flushFields si [] [] fields
    writeDict indexInterval si r.2.2 >>= fun d => .ok ⟨r.1, r.2.1, d⟩

/-! ### Reading -/

/-- Reads from a file at a position: what is read and the position after it. -/
def rdAt {α : Type} (rd : Rd α) (file : List Byte) (p : Nat) : Res (α × Nat) :=
  rd (file.drop p) >>= fun r => .ok (r.1, file.length - r.2.length)

/-- The inner loop of is_skip_vints, store.c 440–441. -/
def skipVint : List Byte → Res (Unit × List Byte)
  | [] => .raise .eof
  | b :: l => if b.toNat ≥ 128 then skipVint l else .ok ((), l)

/-- is_skip_vints, store.c 437–443. -/
def skipVints : Nat → List Byte → Res (Unit × List Byte)
  | 0, l => .ok ((), l)
  | n + 1, l => skipVint l >>= fun r => skipVints n r.2

/-- FrtSegmentTermDocEnum, index.h 423–447. `isPos` says that it is a SegmentTermPosEnum. -/
structure STDE where
  isPos : Bool
  si : Nat
  del : Option BitVector.BV
  frq : List Byte
  prx : List Byte
  frqAt : Nat
  prxAt : Nat
  skipAt : Nat
  count : Int
  docFreq : Int
  docNum : Int
  freq : Int
  numSkips : Int
  skipCount : Int
  skipDoc : Int
  prxCnt : Int
  position : Int
  frqPtr : Nat
  prxPtr : Nat
  skipPtr : Nat
  haveSkipped : Bool

/-- stde_new, index.c 3090–3120, and stpe_new, 3195–3221: zeroed. -/
def stdeNew (isPos : Bool) (si : Nat) (del : Option BitVector.BV) (frq prx : List Byte) : STDE :=
  ⟨isPos, si, del, frq, prx, 0, 0, 0, 0, 0, 0, 0, 0, 0, 0, 0, 0, 0, 0, 0, false⟩

/-- stde_seek_ti, index.c 2891–2909. -/
def seekTi (s : STDE) : Option TI → Res STDE
  | none => .ok { s with docFreq := 0 }
  | some ti =>
    if s.si = 0 then .ub
    else .ok
      { s with
        count := 0, docFreq := ti.docFreq, docNum := 0, skipDoc := 0, skipCount := 0, numSkips := Int.tdiv ti.docFreq s.si
        frqPtr := ti.frqPtr, prxPtr := ti.prxPtr, skipPtr := ti.frqPtr + ti.skip, frqAt := ti.frqPtr, haveSkipped := false }

/-- stpe_seek_ti, index.c 3126–3135. -/
def stpeSeekTi (s : STDE) : Option TI → Res STDE
  | none => .ok { s with docFreq := 0 }
  | some ti => seekTi s (some ti) >>= fun s => .ok { s with prxAt := ti.prxPtr }

/-- What stde_seek, index.c 2911–2915, and stpe_seek, 3137–3143, do after the lookup. -/
def seekFound (s : STDE) (ti : Option TI) : Res STDE :=
  if s.isPos then stpeSeekTi s ti >>= fun s => .ok { s with prxCnt := 0 } else seekTi s ti

/-- stde_seek_te, index.c 2917–2925, which both have; `ti` is te->curr_ti. -/
def seekTe (s : STDE) (ti : TI) : Res STDE := seekTi s (some ti)

/-- Reading a document, index.c 2949–2958 and 2978–2987. -/
def readDoc (s : STDE) : Res STDE :=
  rdAt rdVint s.frq s.frqAt >>= fun r =>
  let code := toS 4 r.1
  let s := { s with docNum := s.docNum + code / 2, frqAt := r.2 }
  (if code % 2 = 1 then .ok { s with freq := 1 }
   else rdAt rdVint s.frq s.frqAt >>= fun f => .ok { s with freq := toS 4 f.1, frqAt := f.2 }) >>= fun s =>
  .ok { s with count := s.count + 1 }

/-- Is the document just read deleted? index.c 2960–2961. -/
def isDeleted (s : STDE) : Res Bool :=
  match s.del with
  | none => .ok false
  | some bv => BitVector.get bv s.docNum

/-- stde_skip_prox, index.c 3078–3081; stpe_skip_prox, 3184–3187. -/
def skipProx (s : STDE) : Res STDE :=
  if s.isPos then rdAt (skipVints s.freq.toNat) s.prx s.prxAt >>= fun r => .ok { s with prxAt := r.2 } else .ok s

/-- The loop of stde_next, index.c 2944–2966; each round reads a document. -/
def nextLoop : (fuel : Nat) → STDE → Res (STDE × Bool)
  | 0, _ => .ub
  | fuel + 1, s =>
    if s.count ≥ s.docFreq then .ok (s, false)
    else readDoc s >>= fun s => isDeleted s >>= fun d =>
      if d then skipProx s >>= fun s => nextLoop fuel s else .ok (s, true)

/-- stde_next, index.c 2939–2968. -/
def stdeNext (s : STDE) : Res (STDE × Bool) := nextLoop ((s.docFreq - s.count).toNat + 1) s

/-- stpe_next, index.c 3145–3160. -/
def stpeNext (s : STDE) : Res (STDE × Bool) :=
  rdAt (skipVints s.prxCnt.toNat) s.prx s.prxAt >>= fun r =>
  stdeNext { s with prxAt := r.2 } >>= fun x =>
  if x.2 then .ok ({ x.1 with prxCnt := x.1.freq, position := 0 }, true)
  else .ok ({ x.1 with prxCnt := 0, position := 0 }, false)

/-- tde->next. -/
def next (s : STDE) : Res (STDE × Bool) := if s.isPos then stpeNext s else stdeNext s

/-- The loop of stde_read, index.c 2976–2995: `n` documents are still wanted. -/
def readLoop : (fuel n : Nat) → STDE → Res (STDE × List (Int × Int))
  | 0, _, _ => .ub
  | fuel + 1, n, s =>
    if n > 0 ∧ s.count < s.docFreq then
      readDoc s >>= fun s => isDeleted s >>= fun d =>
      if d then readLoop fuel n s
      else readLoop fuel (n - 1) s >>= fun r => .ok (r.1, (s.docNum, s.freq) :: r.2)
    else .ok (s, [])

/-- stde_read, index.c 2970–2997; stpe_read, 3162–3168, raises. -/
def read (s : STDE) (n : Nat) : Res (STDE × List (Int × Int)) :=
  if s.isPos then .raise .arg else readLoop ((s.docFreq - s.count).toNat + 1) n s

/-- stpe_next_position, index.c 3170–3175; a SegmentTermDocEnum has none. The position is an int, to
which an unsigned int is added. -/
def nextPosition (s : STDE) : Res (STDE × Int) :=
  if s.isPos then
    if s.prxCnt > 0 then
      rdAt rdVint s.prx s.prxAt >>= fun r =>
      let p := toS 4 ((toU 4 s.position + r.1) % 2 ^ 32)
      .ok ({ s with prxCnt := s.prxCnt - 1, prxAt := r.2, position := p }, p)
    else .ok ({ s with prxCnt := s.prxCnt - 1 }, -1)
  else .ub

/-- The local variables of stde_skip_to, index.c 3005–3008. -/
structure Last where
  doc : Int
  frq : Nat
  prx : Nat
  num : Int

/-- The loop of stde_skip_to, index.c 3027–3046. -/
def skipLoop (target : Int) : (fuel : Nat) → STDE → Last → Res (STDE × Last)
  | 0, _, _ => .ub
  | fuel + 1, s, l =>
    if target > s.skipDoc then
      let l := ⟨s.skipDoc, s.frqPtr, s.prxPtr, if s.skipDoc ≠ 0 ∧ s.skipDoc ≥ s.docNum then l.num + s.si else l.num⟩
      if s.skipCount ≥ s.numSkips then .ok (s, l)
      else
        rdAt rdVint s.frq s.skipAt >>= fun a => rdAt rdVint s.frq a.2 >>= fun b => rdAt rdVint s.frq b.2 >>= fun c =>
        skipLoop target fuel { s with skipDoc := s.skipDoc + a.1, frqPtr := s.frqPtr + b.1, prxPtr := s.prxPtr + c.1, skipAt := c.2, skipCount := s.skipCount + 1 } l
    else .ok (s, l)

/-- stde_skip_to, index.c 3003–3056: using the skip data. -/
def skipAhead (s : STDE) (target : Int) : Res STDE :=
  if s.docFreq ≥ s.si ∧ target > s.docNum then
    if s.si = 0 then .ub
    else
      let s := if s.haveSkipped then s else { s with skipAt := s.skipPtr, haveSkipped := true }
      skipLoop target ((s.numSkips - s.skipCount).toNat + 1) s ⟨s.skipDoc, s.frqAt, 0, -1 - Int.tmod s.count s.si⟩ >>= fun r =>
      let s := r.1
      let l := r.2
      if l.frq > s.frqAt then
        let s := { s with frqAt := l.frq }
        let s := if s.isPos then { s with prxAt := l.prx, prxCnt := 0 } else s
        .ok { s with docNum := l.doc, count := s.count + l.num }
      else .ok s
  else .ok s

/-- The loop of stde_skip_to, index.c 3059–3063. -/
def scanLoop (target : Int) : (fuel : Nat) → STDE → Res (STDE × Bool)
  | 0, _ => .ub
  | fuel + 1, s => next s >>= fun r =>
    if r.2 then (if target > r.1.docNum then scanLoop target fuel r.1 else .ok (r.1, true)) else .ok (r.1, false)

/-- stde_skip_to, index.c 2999–3065. -/
def skipTo (s : STDE) (target : Int) : Res (STDE × Bool) :=
  skipAhead s target >>= fun s => scanLoop target ((s.docFreq - s.count).toNat + 1) s

/-- stde_doc_num and stde_freq, index.c 2927–2937. -/
def docFreqOf (s : STDE) : Res (Int × Int) := if s.count = 0 then .raise .state else .ok (s.docNum, s.freq)

end Ferret.Post
