import Verif.Model.Expand

/-!
The term dictionary of a segment: the writer of .tix, .tis and .tfx (index.c 2706–2869) and the
enumerator and lookups over them (index.c 2045–2373, 2618–2704). Streams carry bytes (C08, C09);
an input stream is the bytes of the file and those not yet read. Terms are lists of bytes other than
NUL. The table of index terms, which the code reads once and keeps, is read at each use here.
-/

namespace Ferret.Dict
open Ferret Ferret.Expand

/-- FrtTermInfo, index.h 239–245. -/
structure TI where
  docFreq : Nat
  frqPtr : Nat
  prxPtr : Nat
  skip : Nat
  deriving DecidableEq, Repr

def TI.zero : TI := ⟨0, 0, 0, 0⟩

/-! ### Writing -/

/-- os_write_voff_t, store.c 564–580: a negative number is written as its low byte. -/
def voff (x : Int) : List Byte := if x < 0 then [byteOf (toU 1 x)] else vint x.toNat

/-- hlp_string_diff, helper.c 4–12. -/
def stringDiff : Term → Term → Nat
  | x :: s, y :: t => if x = y then stringDiff s t + 1 else 0
  | _, _ => 0

/-- FrtTermWriter, index.h 366–372. -/
structure TW where
  os : List Byte
  counter : Nat
  lastTerm : Term
  lastTi : TI

/-- tw_new, index.c 2712–2718. -/
def twNew : TW := ⟨[], 0, [], .zero⟩

/-- What tw_write_term, index.c 2759–2772, writes. -/
def termBytes (last t : Term) : List Byte :=
  let start := stringDiff last t
  vint start ++ (vint (t.length - start) ++ t.drop start)

/-- What tw_add, index.c 2774–2807, writes. -/
def entryBytes (skipInterval : Nat) (last : Term × TI) (t : Term) (ti : TI) : List Byte :=
  termBytes last.1 t ++ (vint ti.docFreq ++ (voff ((ti.frqPtr : Int) - last.2.frqPtr) ++ (voff ((ti.prxPtr : Int) - last.2.prxPtr) ++
    (if ti.docFreq ≥ skipInterval then vint ti.skip else []))))

/-- tw_add, index.c 2774–2807. -/
def twAdd (tw : TW) (t : Term) (ti : TI) (skipInterval : Nat) : TW :=
  ⟨tw.os ++ entryBytes skipInterval (tw.lastTerm, tw.lastTi) t ti, tw.counter + 1, t, ti⟩

/-- FrtTermInfosWriter, index.h 374–383. -/
structure TIW where
  fieldCount : Nat
  indexInterval : Nat
  skipInterval : Nat
  lastIndexPtr : Nat
  tix : TW
  tis : TW
  tfx : List Byte

/-- tiw_open, index.c 2726–2757. -/
def tiwOpen (indexInterval skipInterval : Nat) : TIW :=
  ⟨0, indexInterval, skipInterval, 0, { twNew with counter := indexInterval }, { twNew with counter := skipInterval }, beBytes 4 0⟩

/-- tiw_add, index.c 2809–2833; division by an interval of 0 is undefined. -/
def tiwAdd (w : TIW) (t : Term) (ti : TI) : Res TIW :=
  if w.indexInterval = 0 then .ub
  else
    let w := if w.tis.counter % w.indexInterval = 0 then
        let tix := twAdd w.tix w.tis.lastTerm w.tis.lastTi w.skipInterval
        let pos := w.tis.os.length
        { w with tix := { tix with os := tix.os ++ voff ((pos : Int) - w.lastIndexPtr) }, lastIndexPtr := pos }
      else w
    .ok { w with tis := twAdd w.tis t ti w.skipInterval }

/-- tw_reset, index.c 2835–2840. -/
def twReset (tw : TW) : TW := ⟨tw.os, 0, [], .zero⟩

/-- tiw_start_field, index.c 2842–2854. -/
def tiwStartField (w : TIW) (field : Nat) : TIW :=
  { w with
    tfx := w.tfx ++ (vint w.tix.counter ++ (vint w.tis.counter ++ (vint field ++ (vint w.tix.os.length ++ vint w.tis.os.length))))
    tix := twReset w.tix, tis := twReset w.tis, lastIndexPtr := 0, fieldCount := w.fieldCount + 1 }

/-- The three files of a dictionary. -/
structure Files where
  tix : List Byte
  tis : List Byte
  tfx : List Byte

/-- tiw_close, index.c 2856–2869. -/
def tiwClose (w : TIW) : Files :=
  ⟨w.tix.os, w.tis.os, writeAt (w.tfx ++ (vint w.tix.counter ++ vint w.tis.counter)) 0 (beBytes 4 w.fieldCount)⟩

/-- Adding the terms of a field. -/
def addTerms : TIW → List (Term × TI) → Res TIW
  | w, [] => .ok w
  | w, (t, ti) :: es => tiwAdd w t ti >>= fun w => addTerms w es

/-- Adding fields. -/
def addFields : TIW → List (Nat × List (Term × TI)) → Res TIW
  | w, [] => .ok w
  | w, (f, es) :: fs => addTerms (tiwStartField w f) es >>= fun w => addFields w fs

/-- Writing a dictionary: opened, its fields added, closed. -/
def writeDict (indexInterval skipInterval : Nat) (fields : List (Nat × List (Term × TI))) : Res Files :=
  addFields (tiwOpen indexInterval skipInterval) fields >>= fun w => .ok (tiwClose w)

/-! ### Reading -/

/-- FrtSegmentTermIndex, index.h 287–297, without the table. -/
structure STI where
  indexPtr : Nat
  ptr : Nat
  indexCnt : Nat
  size : Nat

/-- FrtSegmentFieldIndex, index.h 303–311; the dictionary of fields is a map (C05). -/
structure SFI where
  skipInterval : Nat
  indexInterval : Nat
  dict : Int → Option STI
  tix : List Byte

/-- FrtSegmentTermEnum, index.h 314–322 and 262–274: `is` is what is left to read. -/
structure STE where
  file : List Byte
  is : List Byte
  size : Nat
  pos : Int
  term : Term
  ti : TI
  field : Int

/-- One field of sfi_open, index.c 2167–2175. -/
def stiRead : Rd (Int × STI) := fun l =>
  rdVint l >>= fun f => rdVll f.2 >>= fun a => rdVll a.2 >>= fun b => rdVint b.2 >>= fun c => rdVint c.2 >>= fun d =>
  .ok ((toS 4 f.1, ⟨a.1, b.1, c.1, d.1⟩), d.2)

/-- sfi_open, index.c 2150–2182. The counts are ints; no field is read if that is negative. -/
def sfiOpen (fs : Files) : Res SFI :=
  rdBE 4 0 fs.tfx >>= fun n => rdVint n.2 >>= fun ii => rdVint ii.2 >>= fun si =>
  rdMany stiRead (if toS 4 n.1 > 0 then n.1 else 0) si.2 >>= fun ds =>
  .ok ⟨si.1, ii.1, fun f => ds.1.foldl (fun r d => if d.1 = f then some d.2 else r) none, fs.tix⟩

/-- ste_new, index.c 2361–2373. -/
def steNew (file : List Byte) : STE := ⟨file, file, 0, -1, [], .zero, -1⟩

/-- is_seek; the end of the file may be passed, nothing can be read there. -/
def seek (e : STE) (p : Nat) : STE := { e with is := e.file.drop p }

/-- term_read, index.c 2196–2204, into a buffer of MAX_WORD_SIZE bytes that holds `buf`, NUL; more
bytes shared than it holds, or more in all than fit, is undefined. -/
def termRead (buf : Term) : Rd Term := fun l =>
  rdVint l >>= fun s => rdVint s.2 >>= fun n =>
  if s.1 > buf.length ∨ s.1 + n.1 ≥ 255 then .ub
  else rdBytes n.1 n.2 >>= fun b => .ok (buf.take s.1 ++ b.1, b.2)

/-- The reads of ste_next, index.c 2218–2227. -/
def entryRead (skipInterval : Nat) (last : Term × TI) : Rd (Term × TI) := fun l =>
  termRead last.1 l >>= fun t => rdVint t.2 >>= fun df => rdVll df.2 >>= fun f => rdVll f.2 >>= fun p =>
  if df.1 ≥ skipInterval then rdVll p.2 >>= fun s => .ok ((t.1, ⟨df.1, last.2.frqPtr + f.1, last.2.prxPtr + p.1, s.1⟩), s.2)
  else .ok ((t.1, ⟨df.1, last.2.frqPtr + f.1, last.2.prxPtr + p.1, last.2.skip⟩), p.2)

/-- ste_next, index.c 2206–2230. -/
def steNext (skipInterval : Nat) (e : STE) : Res (STE × Option Term) :=
  let e := { e with pos := e.pos + 1 }
  if e.pos ≥ e.size then .ok ({ e with term := [] }, none)
  else entryRead skipInterval (e.term, e.ti) e.is >>= fun r =>
    .ok ({ e with term := r.1.1, ti := r.1.2, is := r.2 }, some r.1.1)

/-- ste_reset, index.c 2232–2238. -/
def steReset (e : STE) : STE := { e with pos := -1, term := [], ti := .zero }

/-- ste_set_field, index.c 2240–2254. -/
def steSetField (sfi : SFI) (e : STE) (f : Int) : STE :=
  let e := { steReset e with field := f }
  match sfi.dict f with
  | some sti => seek { e with size := sti.size } sti.ptr
  | none => { e with size := 0 }

/-- The loop of sti_ensure_index_is_read, index.c 2100–2111: `n` terms are left. -/
def indexLoop (skipInterval : Nat) : Nat → Term × TI → Nat → Rd (List (Term × TI × Nat))
  | 0, _, _, l => .ok ([], l)
  | n + 1, last, ptr, l => entryRead skipInterval last l >>= fun r => rdVll r.2 >>= fun d =>
    indexLoop skipInterval n r.1 (ptr + d.1) d.2 >>= fun rest => .ok ((r.1.1, r.1.2, ptr + d.1) :: rest.1, rest.2)

/-- sti_ensure_index_is_read, index.c 2084–2113: the table. -/
def stiIndex (sfi : SFI) (sti : STI) : Res (List (Term × TI × Nat)) :=
  indexLoop sfi.skipInterval sti.indexCnt ([], .zero) 0 (sfi.tix.drop sti.indexPtr) >>= fun r => .ok r.1

/-- The loop of sti_get_index_offset, index.c 2122–2134. -/
def offsetLoop (index : List (Term × TI × Nat)) (t : Term) : Nat → Int → Int → Res Int
  | 0, _, _ => .ub
  | fuel + 1, lo, hi =>
    if hi ≥ lo then
      let mid := (lo + hi) / 2
      Res.ofOption index[mid.toNat]? >>= fun x =>
      if strcmp t x.1 < 0 then offsetLoop index t fuel lo (mid - 1)
      else if strcmp t x.1 > 0 then offsetLoop index t fuel (mid + 1) hi
      else .ok mid
    else .ok hi

/-- sti_get_index_offset, index.c 2115–2136. -/
def indexOffset (index : List (Term × TI × Nat)) (t : Term) : Res Int := offsetLoop index t (index.length + 1) 0 (index.length - 1)

/-- ste_index_seek, index.c 2256–2266; an offset outside the table is undefined. -/
def indexSeek (sfi : SFI) (index : List (Term × TI × Nat)) (e : STE) (k : Int) : Res STE :=
  if k < 0 then .ub
  else Res.ofOption index[k.toNat]? >>= fun x =>
    .ok { seek e x.2.2 with pos := sfi.indexInterval * k - 1, term := x.1, ti := x.2.1 }

/-- The loop of te_skip_to, index.c 2049–2051: at most `fuel` steps are needed. -/
def skipLoop (skipInterval : Nat) (t : Term) : Nat → STE → Res (STE × Option Term)
  | 0, _ => .ub
  | fuel + 1, e => steNext skipInterval e >>= fun r =>
    match r.2 with
    | none => .ok r
    | some c => if strcmp c t < 0 then skipLoop skipInterval t fuel r.1 else .ok r

/-- te_skip_to, index.c 2045–2054. -/
def teSkipTo (sfi : SFI) (e : STE) (t : Term) : Res (STE × Option Term) :=
  if strcmp e.term t < 0 then skipLoop sfi.skipInterval t (e.size - e.pos).toNat e else .ok (e, some e.term)

/-- ste_scan_to, index.c 2268–2295. Division truncates. -/
def scanTo (sfi : SFI) (e : STE) (t : Term) : Res (STE × Option Term) :=
  match sfi.dict e.field with
  | none => .ok (e, none)
  | some sti =>
    if sti.size > 0 then
      stiIndex sfi sti >>= fun index =>
      if t = [] then indexSeek sfi index e 0 >>= fun e => steNext sfi.skipInterval e
      else
        let jump := indexOffset index t >>= fun k => indexSeek sfi index e k >>= fun e => teSkipTo sfi e t
        if e.pos < e.size ∧ strcmp e.term t ≤ 0 then
          if sfi.indexInterval = 0 then .ub
          else
            let off := Int.tdiv e.pos sfi.indexInterval + 1
            if off = sti.indexCnt then teSkipTo sfi e t
            else Res.ofOption index[off.toNat]? >>= fun x => if strcmp t x.1 < 0 then teSkipTo sfi e t else jump
        else jump
    else .ok (e, none)

/-- The loop of ste_get_term, index.c 2351–2355. -/
def getLoop (skipInterval : Nat) (p : Int) : Nat → STE → Res (STE × Option Term)
  | 0, _ => .ub
  | fuel + 1, e =>
    if e.pos < p then steNext skipInterval e >>= fun r =>
      match r.2 with
      | none => .ok r
      | some _ => getLoop skipInterval p fuel r.1
    else .ok (e, some e.term)

/-- ste_get_term, index.c 2337–2359; a field that is not in the dictionary has no terms and no index. -/
def getTerm (sfi : SFI) (e : STE) (p : Int) : Res (STE × Option Term) :=
  if p ≥ e.size then .ok (e, none)
  else if p ≠ e.pos then
    if sfi.indexInterval = 0 then .ub
    else
      (if p < e.pos ∨ p > (1 + Int.tdiv e.pos sfi.indexInterval) * sfi.indexInterval then
        match sfi.dict e.field with
        | none => .ub
        | some sti => stiIndex sfi sti >>= fun index => indexSeek sfi index e (Int.tdiv p sfi.indexInterval)
      else .ok e) >>= fun e => getLoop sfi.skipInterval p ((p - e.pos).toNat + 1) e
  else .ok (e, some e.term)

/-! ### Lookups -/

/-- FrtTermInfosReader, index.h 345–352, used by one thread: the field and the enumerator, which is
there from the first use on. -/
structure TIR where
  field : Int
  te : Option STE

/-- tir_open, index.c 2618–2631. -/
def tirOpen : TIR := ⟨-1, none⟩

/-- tir_enum, index.c 2633–2643. -/
def tirEnum (sfi : SFI) (tis : List Byte) (r : TIR) : STE :=
  match r.te with
  | some e => e
  | none => steSetField sfi (steNew tis) r.field

/-- tir_set_field, index.c 2645–2652. -/
def tirSetField (sfi : SFI) (tis : List Byte) (r : TIR) (f : Int) : TIR :=
  if f ≠ r.field then ⟨f, some (steSetField sfi (tirEnum sfi tis r) f)⟩ else r

/-- tir_get_ti, index.c 2654–2664. -/
def tirGetTi (sfi : SFI) (tis : List Byte) (r : TIR) (t : Term) : Res (TIR × Option TI) :=
  scanTo sfi (tirEnum sfi tis r) t >>= fun x =>
  .ok ({ r with te := some x.1 }, match x.2 with
    | some m => if strcmp m t = 0 then some x.1.ti else none
    | none => none)

/-- tir_get_ti_field, index.c 2666–2682. -/
def tirGetTiField (sfi : SFI) (tis : List Byte) (r : TIR) (f : Int) (t : Term) : Res (TIR × Option TI) :=
  tirGetTi sfi tis (if f ≠ r.field then ⟨f, some (steSetField sfi (tirEnum sfi tis r) f)⟩ else { r with te := some (tirEnum sfi tis r) }) t

/-- tir_get_term, index.c 2684–2692. -/
def tirGetTerm (sfi : SFI) (tis : List Byte) (r : TIR) (p : Int) : Res (TIR × Option Term) :=
  if p < 0 then .ok (r, none)
  else getTerm sfi (tirEnum sfi tis r) p >>= fun x => .ok ({ r with te := some x.1 }, x.2)

end Ferret.Dict
