import Verif.Model.Postings
import Verif.Model.PriorityQueue

/-!
Merging segments, index.c 5693–6159: the postings and the dictionary (sm_append_postings, sm_merge_term_info,
sm_merge_term_infos, sm_merge_terms), the stored fields (sm_merge_fields), the norms (sm_merge_norms) and the numbers that
documents get (smi_new, smi_load_doc_map, sm_create).

Simplifications: streams carry bytes (C08, C09); an input stream is a file and a position in it. A segment is in the queue as its
term, its base and its index, as it is never changed while it is in it. Numbers of documents do not overflow. A failed assert is
undefined. Terms are values: the buffer they are copied to (sm_cache_term) is modelled on its own, see `cacheTerm`.
-/

namespace Ferret.Merge
open Ferret Ferret.Expand Ferret.Dict Ferret.Post

/-! ### The segments -/

/-- The files of a segment that is merged: postings, dictionary, stored fields and its deletions. -/
structure Input where
  files : SegFiles
  fdx : List Byte
  fdt : List Byte
  del : Option BitVector.BV

/-- SegmentMergeInfo, index.c 5701–5716, without its enumerators. -/
structure Smi where
  base : Nat
  maxDoc : Nat
  docCnt : Nat
  del : Option BitVector.BV
  docMap : Option (List Int)
  sfi : SFI
  files : SegFiles
  fdx : List Byte
  fdt : List Byte

/-- The loop of smi_load_doc_map, index.c 5736–5743: `n` documents are left, `i` is the next, `j` of those before are not
deleted. -/
def docMapLoop (bv : BitVector.BV) : (n i j : Nat) → Res (List Int × Nat)
  | 0, _, j => .ok ([], j)
  | n + 1, i, j => BitVector.get bv i >>= fun b =>
    docMapLoop bv n (i + 1) (if b then j else j + 1) >>= fun r => .ok ((if b then -1 else (j : Int)) :: r.1, r.2)

/-- smi_new, index.c 5747–5771, smi_load_doc_map, 5729–5745, and sfi_open in smi_load_term_input, 5773–5787. -/
def smiNew (base : Nat) (s : Input) : Res Smi :=
  sfiOpen s.files.dict >>= fun sfi =>
  let max := s.fdx.length / 12
  match s.del with
  | none => .ok ⟨base, max, max, none, none, sfi, s.files, s.fdx, s.fdt⟩
  | some bv => docMapLoop bv max 0 0 >>= fun r => .ok ⟨base, max, r.2, some bv, some r.1, sfi, s.files, s.fdx, s.fdt⟩

/-- The loop of sm_create, index.c 5848–5852: the first number is sm->doc_cnt. -/
def smCreate : Nat → List Input → Res (List Smi × Nat)
  | base, [] => .ok ([], base)
  | base, s :: ss => smiNew base s >>= fun m => smCreate (base + m.docCnt) ss >>= fun r => .ok (m :: r.1, r.2)

/-! ### Terms -/

/-- is2os_copy_vints, store.c 636–645: one number. -/
def copyVint : List Byte → Res (List Byte × List Byte)
  | [] => .raise .eof
  | b :: l => if b.toNat ≥ 128 then copyVint l >>= fun r => .ok (b :: r.1, r.2) else .ok ([b], l)

/-- is2os_copy_vints, store.c 636–645. -/
def copyVints : Nat → List Byte → Res (List Byte × List Byte)
  | 0, l => .ok ([], l)
  | n + 1, l => copyVint l >>= fun r => copyVints n r.2 >>= fun q => .ok (r.1 ++ q.1, q.2)

/-- The local variables of sm_append_postings, index.c 5926–5932, and the files. -/
structure App where
  df : Nat
  lastDoc : Nat
  buf : SkipBuf
  frq : List Byte
  prx : List Byte

/-- The number a document gets, index.c 5945–5949. -/
def mapDoc (smi : Smi) (doc : Int) : Res Int :=
  match smi.docMap with
  | none => .ok (doc + smi.base)
  | some m => if doc < 0 then .ub else Res.ofOption m[doc.toNat]? >>= fun d => .ok (d + smi.base)

/-- The loop over the documents of a term in one segment, index.c 5944–5971; `si` is config->skip_interval. -/
def appendLoop (si : Nat) (smi : Smi) : Nat → STDE → App → Res (STDE × App)
  | 0, _, _ => .ub
  | fuel + 1, s, a =>
    stdeNext s >>= fun r =>
    if r.2 then
      let s := r.1
      mapDoc smi s.docNum >>= fun doc =>
      if ¬ (doc = 0 ∨ doc > a.lastDoc) then .ub
      else if si = 0 then .ub
      else
        let df := a.df + 1
        let buf := if df % si = 0 then skipAdd a.buf a.frq a.prx a.lastDoc else a.buf
        let code : Int := (doc - a.lastDoc) * 2
        let frq := a.frq ++ (if s.freq = 1 then vint (toU 4 (code + 1)) else vint (toU 4 code) ++ vint (toU 4 s.freq))
        rdAt (copyVints s.freq.toNat) s.prx s.prxAt >>= fun p =>
        appendLoop si smi fuel { s with prxAt := p.2 } ⟨df, doc.toNat, buf, frq, a.prx ++ p.1⟩
    else .ok (r.1, a)

/-- The state of sm_merge_term_infos: the enumerators of the segments, the queue and what has been written. -/
structure SM where
  tes : List STE
  tdes : List STDE
  q : PQ.PQ (Term × Nat × Nat)
  frq : List Byte
  prx : List Byte
  tiw : TIW

/-- The loop of sm_append_postings over the segments with the term, index.c 5935–5972. -/
def appendAll (si : Nat) (smis : List Smi) (tes : List STE) : List Nat → List STDE → App → Res (List STDE × App)
  | [], tdes, a => .ok (tdes, a)
  | i :: is, tdes, a =>
    Res.ofOption smis[i]? >>= fun smi => Res.ofOption tes[i]? >>= fun te => Res.ofOption tdes[i]? >>= fun tde =>
    stpeSeekTi tde (some te.ti) >>= fun tde =>
    appendLoop si smi (te.ti.docFreq + 1) tde a >>= fun r =>
    appendAll si smis tes is (tdes.set i r.1) r.2

/-- sm_merge_term_info, index.c 5986–6006, with sm_append_postings, 5922–5974. -/
def mergeTerm (si : Nat) (smis : List Smi) (m : SM) (term : Term) (ms : List Nat) : Res SM :=
  appendAll si smis m.tes ms m.tdes ⟨0, 0, skipReset m.frq m.prx, m.frq, m.prx⟩ >>= fun r =>
  let a := r.2
  let m' : SM := { m with tdes := r.1, frq := a.frq ++ a.buf.buf, prx := a.prx }
  if a.df > 0 then
    tiwAdd m.tiw term ⟨a.df, m.frq.length, m.prx.length, a.frq.length - m.frq.length⟩ >>= fun w => .ok { m' with tiw := w }
  else .ok m'

/-- smi_lt, index.c 5718–5727. -/
def smiLt (a b : Term × Nat × Nat) : Bool :=
  let c := strcmp a.1 b.1
  if c = 0 then decide (a.2.1 < b.2.1) else decide (c < 0)

/-- Segment `i` moves to its next term and is pushed on the queue if there is one, index.c 6026–6029 and 6054–6057. -/
def pushNext (smis : List Smi) (i : Nat) (e : STE) (m : SM) : Res SM :=
  Res.ofOption smis[i]? >>= fun smi =>
  steNext smi.sfi.skipInterval e >>= fun r =>
  let m := { m with tes := m.tes.set i r.1 }
  match r.2 with
  | none => .ok m
  | some t => PQ.push smiLt m.q (t, smi.base, i) >>= fun q => .ok { m with q := q }

/-- The loop in which the segments with the same term are taken from the queue, index.c 6042–6047; there is room for `cnt`
matches. -/
def popLoop (cnt : Nat) (term : Term) : Nat → PQ.PQ (Term × Nat × Nat) → List Nat → Res (PQ.PQ (Term × Nat × Nat) × List Nat)
  | 0, _, _ => .ub
  | fuel + 1, q, ms =>
    match PQ.top q with
    | none => .ok (q, ms)
    | some top =>
      if strcmp term top.1 = 0 then
        PQ.pop smiLt q >>= fun p => Res.ofOption p.1 >>= fun x =>
        if ms.length ≥ cnt then .ub else popLoop cnt term fuel p.2 (ms ++ [x.2.2])
      else .ok (q, ms)

/-- The loop in which the segments go on to their next terms, index.c 6052–6058. -/
def nextAll (smis : List Smi) : List Nat → SM → Res SM
  | [], m => .ok m
  | i :: is, m => Res.ofOption m.tes[i]? >>= fun e => pushNext smis i e m >>= fun m => nextAll smis is m

/-- One round of the loop over the terms, index.c 6038–6058. -/
def round (si : Nat) (smis : List Smi) (m : SM) : Res SM :=
  PQ.pop smiLt m.q >>= fun p => Res.ofOption p.1 >>= fun first =>
  if smis.length = 0 then .ub
  else
    popLoop smis.length first.1 (p.2.heap.length + 1) p.2 [first.2.2] >>= fun r =>
    mergeTerm si smis { m with q := r.1 } first.1 r.2 >>= fun m => nextAll smis r.2.reverse m

/-- The loop over the terms of a field, index.c 6031–6059. -/
def termLoop (si : Nat) (smis : List Smi) : Nat → SM → Res SM
  | 0, _ => .ub
  | fuel + 1, m => if m.q.heap.length > 0 then round si smis m >>= fun m => termLoop si smis fuel m else .ok m

/-- The loop that starts a field in all segments, index.c 6024–6030. -/
def startAll (smis : List Smi) (f : Nat) : List Nat → SM → Res SM
  | [], m => .ok m
  | i :: is, m => Res.ofOption smis[i]? >>= fun smi => Res.ofOption m.tes[i]? >>= fun e =>
    pushNext smis i (steSetField smi.sfi e f) m >>= fun m => startAll smis f is m

/-- The loop over the fields, index.c 6022–6060; each round of the inner loop takes a term from an enumerator at least. -/
def fieldLoop (si : Nat) (smis : List Smi) : List Nat → SM → Res SM
  | [], m => .ok m
  | f :: fs, m =>
    startAll smis f (List.range smis.length) { m with tiw := tiwStartField m.tiw f } >>= fun m =>
    termLoop si smis ((m.tes.map fun e => (e.size - e.pos).toNat).sum + 1) m >>= fun m => fieldLoop si smis fs m

/-- sm_merge_terms, index.c 6067–6098, with sm_merge_term_infos, 6008–6065, for `cnt` fields. -/
def mergeTerms (ii si cnt : Nat) (smis : List Smi) : Res SegFiles :=
  fieldLoop si smis (List.range cnt)
    ⟨smis.map fun s => steNew s.files.dict.tis, smis.map fun s => stdeNew true s.sfi.skipInterval s.del s.files.frq s.files.prx,
      PQ.new smis.length, [], [], tiwOpen ii si⟩ >>= fun m =>
  .ok ⟨m.frq, m.prx, tiwClose m.tiw⟩

/-! ### Stored fields -/

/-- Is a document deleted? -/
def isDead (del : Option BitVector.BV) (j : Nat) : Res Bool :=
  match del with
  | none => .ok false
  | some bv => BitVector.get bv j

/-- The loop of sm_merge_fields over the documents of a segment, index.c 5898–5914: `n` are left, `fdx` is what is left of the
index, `start` is where the next begins. -/
def fieldsLoop (del : Option BitVector.BV) (fdt : List Byte) : (n j : Nat) → (fdx : List Byte) → (start : Nat) → List Byte × List Byte → Res (List Byte × List Byte)
  | 0, _, _, _, out => .ok out
  | n + 1, j, fdx, start, out =>
    rdBE 4 0 fdx >>= fun tv =>
    (if n = 0 then .ok (fdt.length, tv.2) else rdBE 8 0 tv.2 >>= fun e => .ok e) >>= fun e =>
    isDead del j >>= fun dead =>
    if dead then fieldsLoop del fdt n (j + 1) e.2 e.1 out
    else
      rdBytes (e.1 - start) (fdt.drop start) >>= fun b =>
      fieldsLoop del fdt n (j + 1) e.2 e.1 (out.1 ++ (beBytes 8 out.2.length ++ beBytes 4 tv.1), out.2 ++ b.1)

/-- sm_merge_fields, index.c 5869–5920: the files .fdx and .fdt. -/
def mergeFields : List Smi → List Byte × List Byte → Res (List Byte × List Byte)
  | [], out => .ok out
  | s :: ss, out =>
    (if s.maxDoc > 0 then rdBE 8 0 s.fdx >>= fun st => fieldsLoop s.del s.fdt s.maxDoc 0 st.2 st.1 out else .ok out) >>= fun out =>
    mergeFields ss out

/-! ### Norms -/

/-- The loop of sm_merge_norms over the documents of a segment, index.c 6129–6134. -/
def normsLoop (bv : BitVector.BV) : (n k : Nat) → List Byte → Res (List Byte)
  | 0, _, _ => .ok []
  | n + 1, k, l => rdBytes 1 l >>= fun r => BitVector.get bv k >>= fun b =>
    normsLoop bv n (k + 1) r.2 >>= fun rest => .ok (if b then rest else r.1 ++ rest)

/-- One field of sm_merge_norms, index.c 6119–6147: `norms` are the files of the field in the segments that have one. -/
def mergeNorms : List (Smi × Option (List Byte)) → Res (List Byte)
  | [] => .ok []
  | (s, norms) :: ss =>
    (match norms with
      | none => .ok (List.replicate s.docCnt 0)
      | some l => match s.del with
        | none => rdBytes s.maxDoc l >>= fun r => .ok r.1
        | some bv => normsLoop bv s.maxDoc 0 l) >>= fun out =>
    mergeNorms ss >>= fun rest => .ok (out ++ rest)

/-! ### The buffer of terms

The writer of the dictionary keeps pointers to the terms it was given last. The merger copies each term to a buffer for it,
and begins again at the start of the buffer when it is full. -/

/-- The string at a place of the buffer, up to its NUL; `n` bytes of the buffer are left. -/
def cstr (mem : Nat → Byte) : (n p : Nat) → Res Term
  | 0, _ => .ub
  | n + 1, p => if mem p = 0 then .ok [] else cstr mem n (p + 1) >>= fun t => .ok (mem p :: t)

/-- memcpy. -/
def blit (mem : Nat → Byte) (p : Nat) (b : List Byte) : Nat → Byte := fun i =>
  if p ≤ i then b[i - p]?.getD (mem i) else mem i

/-- The buffer, its next place, and what the writer points to: nothing, or a place in the buffer. -/
structure BufW where
  tiw : TIW
  mem : Nat → Byte
  ptr : Nat
  tixAt : Option Nat
  tisAt : Option Nat

/-- The term a pointer of the writer points to; EMPTY_STRING at the start of a field. -/
def pointee (ii : Nat) (mem : Nat → Byte) : Option Nat → Res Term
  | none => .ok []
  | some p => cstr mem ((ii + 2) * 255 - p) p

/-- sm_cache_term, index.c 5976–5984, with the sizes of 6085–6086, and then tiw_add, 6003, 2809–2833. -/
def bufAdd (ii : Nat) (s : BufW) (t : Term) (ti : TI) : Res BufW :=
  if s.ptr + (t.length + 1) > (ii + 2) * 255 then .ub
  else
    let mem := blit s.mem s.ptr (t ++ [0])
    let ptr := if s.ptr + (t.length + 1) > (ii + 1) * 255 then 0 else s.ptr + (t.length + 1)
    if s.tiw.indexInterval = 0 then .ub
    else
      let indexed := s.tiw.tis.counter % s.tiw.indexInterval = 0
      (if indexed then pointee ii mem s.tixAt else .ok s.tiw.tix.lastTerm) >>= fun x =>
      pointee ii mem s.tisAt >>= fun y =>
      tiwAdd { s.tiw with tix := { s.tiw.tix with lastTerm := x }, tis := { s.tiw.tis with lastTerm := y } } t ti >>= fun w =>
      .ok ⟨w, mem, ptr, if indexed then s.tisAt else s.tixAt, some s.ptr⟩

/-- The terms of a field that are left after merging, index.c 6023–6059. -/
def bufTerms (ii : Nat) : BufW → List (Term × TI) → Res BufW
  | s, [] => .ok s
  | s, (t, ti) :: es => bufAdd ii s t ti >>= fun s => bufTerms ii s es

/-- The fields, index.c 6022–6060. -/
def bufFields (ii : Nat) : BufW → List (Nat × List (Term × TI)) → Res BufW
  | s, [] => .ok s
  | s, (f, es) :: fs => bufTerms ii { s with tiw := tiwStartField s.tiw f, tixAt := none, tisAt := none } es >>= fun s => bufFields ii s fs

/-- The dictionary that sm_merge_terms, index.c 6067–6098, writes if these are the terms that are left; `mem` is what the
buffer holds at first. -/
def bufDict (ii si : Nat) (mem : Nat → Byte) (fields : List (Nat × List (Term × TI))) : Res Files :=
  bufFields ii ⟨tiwOpen ii si, mem, 0, none, none⟩ fields >>= fun s => .ok (tiwClose s.tiw)

end Ferret.Merge
