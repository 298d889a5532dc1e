import Verif.Model.FieldInfos
import Verif.Model.TermDict

/-!
Stored fields and term vectors, c/src/index.c 1195–2024 and c/src/document.c 109–122: writing
documents (fw_add_doc, fw_add_postings, fw_write_tv_index), reading them whole (fr_get_doc), lazily
(fr_get_lazy_doc, lazy_df_get_data, lazy_df_get_bytes), and reading term vectors
(fr_read_term_vector, fr_get_tv, fr_get_field_tv, sr_term_vector).

Streams carry bytes (C08, C09); the temporary buffer of fw_add_doc is a list of bytes. (Copying it,
ramo_write_to reads one pointer too many when its length is a multiple of 1024, see C09; that is not
repeated here.) The compression library is a parameter `Zip`; the loops around it are those of the
code. A loop around it that makes no progress and goes on until an `int` overflows is undefined
behaviour here. A count or length read from a file that does not fit an `int` is undefined.
That the data of one field together fits an `int` is assumed.
-/

namespace Ferret.Fields
open Ferret Ferret.Spec Ferret.Fis Ferret.Expand Ferret.Dict

/-- `DocField`, document.h 18–28: the name and the data with their lengths. -/
structure DocF where
  name : Name
  data : List (List Byte)
  deriving DecidableEq

/-- `Document`, document.h 40–47: its fields in the order added. -/
abbrev Doc := List DocF

/-- doc_add_field, document.c 109–122. -/
def docAddField (d : Doc) (f : DocF) : Res Doc :=
  if d.any (fun g => g.name == f.name) then .raise .exception else .ok (d ++ [f])

/-- The compression library: all of the input to all of the output. -/
structure Zip where
  zip : List Byte → List Byte
  unzip : List Byte → Option (List Byte)

/-- ZIP_BUFFER_SIZE, index.c. -/
def zipBuffer : Nat := 16348

/-! ### Writing -/

/-- `FieldsWriter`, index.h: the two files, the fields, where the current document starts and its
term vectors (field number and size). -/
structure FW where
  fdt : List Byte
  fdx : List Byte
  fis : FIS
  startPtr : Nat
  tvFields : List (Nat × Nat)

/-- fw_open, index.c 1808–1828. -/
def fwOpen (fis : FIS) : FW := ⟨[], [], fis, 0, []⟩

/-- os_write_zipped_bytes, index.c 1840–1895: the bytes written. The output buffer is never emptied,
so once it is full the loop writes it again and again. -/
def writeZipped (Z : Zip) (data : List Byte) : Res (List Byte) :=
  let z := Z.zip data
  if z.length < zipBuffer then .ok z else .ub

/-- The first loop of fw_add_doc, index.c 1905–1910. -/
def countStored : FIS → Doc → Res (FIS × Nat)
  | fis, [] => .ok (fis, 0)
  | fis, df :: dfs =>
    getOrAdd fis df.name >>= fun fis =>
    Res.ofOption (getField fis df.name) >>= fun fi =>
    countStored fis dfs >>= fun r =>
    .ok (r.1, if isStored fi then r.2 + 1 else r.2)

/-- The loops over the data of a field, index.c 1925–1943: what goes to the file and what to the
buffer. -/
def writeData (Z : Zip) (compressed : Bool) : List (List Byte) → Res (List Byte × List Byte)
  | [] => .ok ([], [])
  | d :: ds =>
    (if compressed then
      writeZipped Z d >>= fun z => .ok (vint (toU 4 ((z.length : Int) - 1)), z)
     else .ok (vint d.length, d ++ [32])) >>= fun r =>
    writeData Z compressed ds >>= fun q =>
    .ok (r.1 ++ q.1, r.2 ++ q.2)

/-- The second loop of fw_add_doc, index.c 1918–1945. -/
def writeFields (Z : Zip) (fis : FIS) : Doc → Res (List Byte × List Byte)
  | [] => .ok ([], [])
  | df :: dfs =>
    Res.ofOption (getField fis df.name) >>= fun fi =>
    (if isStored fi then
      writeData Z (isCompressed fi) df.data >>= fun r =>
      .ok (vint fi.number ++ (vint df.data.length ++ r.1), r.2)
     else .ok ([], [])) >>= fun r =>
    writeFields Z fis dfs >>= fun q =>
    .ok (r.1 ++ q.1, r.2 ++ q.2)

/-- fw_add_doc, index.c 1897–1947. -/
def fwAddDoc (Z : Zip) (w : FW) (doc : Doc) : Res FW :=
  countStored w.fis doc >>= fun c =>
  writeFields Z c.1 doc >>= fun r =>
  .ok { fdt := w.fdt ++ (vint c.2 ++ (r.1 ++ r.2)), fdx := w.fdx ++ beBytes 8 w.fdt.length, fis := c.1,
        startPtr := w.fdt.length, tvFields := [] }

/-- fw_write_tv_index, index.c 1949–1962. -/
def fwWriteTvIndex (w : FW) : FW :=
  { w with
    fdx := w.fdx ++ beBytes 4 ((w.fdt.length - w.startPtr) % 2 ^ 32)
    fdt := w.fdt ++ (vint w.tvFields.length ++
      (w.tvFields.reverse.map (fun f => vint f.1 ++ vint f.2)).flatten) }

/-- A posting list of one document: the term and the positions of its occurrences; its frequency is
their number. -/
structure PL where
  term : Term
  occs : List Int
  deriving DecidableEq

/-- The loop over the positions, index.c 2000–2007. -/
def writePositions : Int → List Int → List Byte
  | _, [] => []
  | last, p :: ps => vint (toU 4 (p - last)) ++ writePositions p ps

/-- The loop over the terms, index.c 1985–2009. -/
def writeTerms (positions : Bool) : Term → List PL → List Byte
  | _, [] => []
  | last, pl :: pls =>
    termBytes last pl.term ++ (vint pl.occs.length ++
      ((if positions then writePositions 0 pl.occs else []) ++ writeTerms positions pl.term pls))

/-- The loop over the offsets, index.c 2015–2021. -/
def writeOffsets : Int → List (Int × Int) → List Byte
  | _, [] => []
  | last, (s, e) :: os => vint (toU 8 (s - last)) ++ (vint (toU 8 (e - s)) ++ writeOffsets e os)

/-- What fw_add_postings writes of one field. -/
def tvBytes (fi : FI) (pls : List PL) (offs : List (Int × Int)) : List Byte :=
  vint pls.length ++ (writeTerms (storePositions fi) [] pls ++
    (if storeOffsets fi then vint offs.length ++ writeOffsets 0 offs else []))

/-- fw_add_postings, index.c 1964–2024. -/
def fwAddPostings (w : FW) (fieldNum : Nat) (pls : List PL) (offs : List (Int × Int)) : Res FW :=
  Res.ofOption (byNumber w.fis fieldNum) >>= fun fi =>
  let b := tvBytes fi pls offs
  .ok { w with fdt := w.fdt ++ b, tvFields := w.tvFields ++ [(fieldNum, b.length)] }

/-! ### Reading -/

/-- A count or length. -/
def rdInt : Rd Nat := fun l => rdVint l >>= fun r => if r.1 < 2 ^ 31 then .ok r else .ub

/-- is_read_zipped_bytes, index.c 1254–1299 and 1344–1385. It reads all bytes into a buffer of fixed
size; the space for output is renewed only together with the input, so once it is used up the inner
loop goes on for ever. -/
def readZipped (Z : Zip) (zipLen : Nat) : Rd (List Byte) := fun l =>
  if zipLen > zipBuffer then .ub
  else
    rdBytes zipLen l >>= fun r =>
    match Z.unzip r.1 with
    | none => .raise .io
    | some d => if d.length < zipBuffer then .ok (d, r.2) else .ub

/-- `FieldsReader`, index.h: the two files, the fields, and the number of documents. -/
structure FR where
  fdt : List Byte
  fdx : List Byte
  fis : FIS
  size : Nat

/-- fr_open, index.c 1514–1533. -/
def frOpen (fdt fdx : List Byte) (fis : FIS) : FR := ⟨fdt, fdx, fis, fdx.length / 12⟩

/-- The first loop of fr_get_doc, index.c 1592–1603: the fields without their data. -/
def readHeads (fis : FIS) : Nat → List (FI × List Nat) → Rd (List (FI × List Nat))
  | 0, acc, l => .ok (acc, l)
  | n + 1, acc, l =>
    rdInt l >>= fun num =>
    Res.ofOption (byNumber fis num.1) >>= fun fi =>
    rdInt num.2 >>= fun sz =>
    rdMany rdInt sz.1 sz.2 >>= fun lens =>
    if acc.any (fun g => g.1.name == fi.name) then .raise .exception
    else readHeads fis n (acc ++ [(fi, lens.1)]) lens.2

/-- The data of one field, index.c 1604–1618 and 1566–1576. -/
def readData (Z : Zip) (compressed : Bool) : List Nat → Rd (List (List Byte))
  | [], l => .ok ([], l)
  | len :: lens, l =>
    (if compressed then readZipped Z (len + 1) l
     else rdBytes (len + 1) l >>= fun r => .ok (r.1.take len, r.2)) >>= fun r =>
    readData Z compressed lens r.2 >>= fun q =>
    .ok (r.1 :: q.1, q.2)

/-- The second loop of fr_get_doc, index.c 1604–1618. -/
def readFields (Z : Zip) : List (FI × List Nat) → Rd Doc
  | [], l => .ok ([], l)
  | (fi, lens) :: hs, l =>
    readData Z (isCompressed fi) lens l >>= fun r =>
    readFields Z hs r.2 >>= fun q =>
    .ok (⟨fi.name, r.1⟩ :: q.1, q.2)

/-- Where document `n` starts, index.c 1587–1589. -/
def docStart (fr : FR) (n : Nat) : Res Nat :=
  if n * 12 < 2 ^ 31 then rdBE 8 0 (fr.fdx.drop (n * 12)) >>= fun p => .ok p.1 else .ub

/-- fr_get_doc, index.c 1578–1621. -/
def frGetDoc (Z : Zip) (fr : FR) (n : Nat) : Res Doc :=
  docStart fr n >>= fun pos =>
  rdInt (fr.fdt.drop pos) >>= fun cnt =>
  readHeads fr.fis cnt.1 [] cnt.2 >>= fun hs =>
  readFields Z hs.1 hs.2 >>= fun d =>
  .ok d.1

/-! ### Lazy documents -/

/-- `LazyDocFieldData`, index.h. -/
structure LazyData where
  start : Nat
  length : Nat
  text : Option (List Byte)
  deriving DecidableEq

/-- `LazyDocField`, index.h 588–596; `compressed` is 0, 1 or 2. -/
structure LazyF where
  name : Name
  data : List LazyData
  len : Int
  compressed : Nat
  deriving DecidableEq

/-- The loop of fr_get_lazy_doc over the data of a field, index.c 1647–1650. -/
def lazyLens : Nat → Nat → Rd (Nat × List LazyData)
  | 0, start, l => .ok ((start, []), l)
  | n + 1, start, l =>
    rdInt l >>= fun len =>
    lazyLens n (start + 1 + len.1) len.2 >>= fun r =>
    .ok ((r.1.1, ⟨start, len.1, none⟩ :: r.1.2), r.2)

/-- The first loop of fr_get_lazy_doc, index.c 1639–1654. -/
def lazyHeads (fis : FIS) : Nat → Nat → Rd (List LazyF)
  | 0, _, l => .ok ([], l)
  | n + 1, start, l =>
    rdInt l >>= fun num =>
    Res.ofOption (byNumber fis num.1) >>= fun fi =>
    rdInt num.2 >>= fun sz =>
    lazyLens sz.1 start sz.2 >>= fun r =>
    lazyHeads fis n r.1.1 r.2 >>= fun q =>
    .ok (⟨fi.name, r.1.2, (r.1.1 : Int) - start - 1, if isCompressed fi then 1 else 0⟩ :: q.1, q.2)

/-- fr_get_lazy_doc, index.c 1623–1666; the second loop, 1656–1663, adds the position. -/
def frGetLazyDoc (fr : FR) (n : Nat) : Res (List LazyF) :=
  docStart fr n >>= fun pos =>
  rdInt (fr.fdt.drop pos) >>= fun cnt =>
  lazyHeads fr.fis cnt.1 0 cnt.2 >>= fun r =>
  let here := fr.fdt.length - r.2.length
  .ok (r.1.map fun f => { f with data := f.data.map fun d => { d with start := d.start + here } })

/-- lazy_df_get_data, index.c 1390–1412. -/
def lazyGetData (Z : Zip) (fdt : List Byte) (f : LazyF) (i : Int) : Res (LazyF × Option (List Byte)) :=
  if i < f.data.length ∧ i ≥ 0 then
    Res.ofOption f.data[i.toNat]? >>= fun d =>
    match d.text with
    | some t => .ok (f, some t)
    | none =>
      if f.compressed ≠ 0 then
        readZipped Z (d.length + 1) (fdt.drop d.start) >>= fun r =>
        .ok ({ f with data := f.data.set i.toNat { d with text := some r.1, length := r.1.length } }, some r.1)
      else
        rdBytes (d.length + 1) (fdt.drop d.start) >>= fun r =>
        .ok ({ f with data := f.data.set i.toNat { d with text := some (r.1.take d.length) } }, some (r.1.take d.length))
  else .ok (f, none)

/-- The loop of lazy_df_get_bytes that loads the data, index.c 1418–1422, for `i` below `n`. -/
def lazyLoad (Z : Zip) (fdt : List Byte) : Nat → LazyF → Int → Res (LazyF × Int)
  | 0, f, len => .ok (f, len)
  | n + 1, f, len =>
    lazyGetData Z fdt f n >>= fun r =>
    Res.ofOption r.1.data[n]? >>= fun d =>
    lazyLoad Z fdt n r.1 (len + d.length + 1)

/-- The loop of lazy_df_get_bytes that copies, index.c 1439–1462. -/
def lazyCopy (start : Nat) : List LazyData → (curStart len : Nat) → Res (List Byte)
  | [], _, _ => .ok []
  | d :: ds, curStart, len =>
    let curEnd := curStart + d.length
    if start < curEnd then
      let copyStart := if start > curStart then start - curStart else 0
      let copyLen := curEnd - curStart - copyStart
      Res.ofOption d.text >>= fun t =>
      if copyLen ≥ len then .ok ((t.drop copyStart).take len)
      else
        let out := (t.drop copyStart).take copyLen ++ [32]
        let len := len - copyLen - 1
        if len = 0 then .ok out
        else lazyCopy start ds (curEnd + 1) len >>= fun r => .ok (out ++ r)
    else lazyCopy start ds (curEnd + 1) len

/-- The start of lazy_df_get_bytes, index.c 1417–1425: the data of a compressed field is loaded at
the first call. -/
def lazyPrep (Z : Zip) (fdt : List Byte) (f : LazyF) : Res LazyF :=
  if f.compressed = 1 then
    lazyLoad Z fdt f.data.length f 0 >>= fun r =>
    .ok { r.1 with len := r.2 - 1, compressed := 2 }
  else .ok f

/-- The rest of lazy_df_get_bytes, index.c 1426–1468: the bytes put in the buffer. -/
def lazyRead (fdt : List Byte) (f : LazyF) (start len : Int) : Res (List Byte) :=
  if start < 0 ∨ start ≥ f.len then .raise .io
  else if len ≤ 0 then .raise .io
  else if start + len ≥ 2 ^ 31 then .ub
  else if start + len > f.len then .raise .io
  else if f.compressed ≠ 0 then lazyCopy start.toNat f.data 0 len.toNat
  else
    Res.ofOption f.data[0]? >>= fun d =>
    rdBytes len.toNat (fdt.drop (d.start + start.toNat)) >>= fun r =>
    .ok r.1

/-- lazy_df_get_bytes, index.c 1414–1468: the field afterwards, and what the call gives (an
exception leaves the loaded data in the field). -/
def lazyGetBytes (Z : Zip) (fdt : List Byte) (f : LazyF) (start len : Int) : Res (LazyF × Res (List Byte)) :=
  lazyPrep Z fdt f >>= fun f => .ok (f, lazyRead fdt f start len)

/-! ### Term vectors -/

/-- `TVTerm`, index.h: text, frequency, and positions if stored. -/
structure TVTerm where
  text : Term
  freq : Nat
  positions : Option (List Int)
  deriving DecidableEq

/-- `TermVector`, index.h; offsets if stored and there are terms. -/
structure TV where
  fieldNum : Nat
  field : Name
  terms : List TVTerm
  offsets : Option (List (Int × Int))
  deriving DecidableEq

/-- The positions of a term, index.c 1703–1709: `int += unsigned`. -/
def readPositions : Nat → Int → Rd (List Int)
  | 0, _, l => .ok ([], l)
  | n + 1, pos, l =>
    rdVint l >>= fun r =>
    let pos := toS 4 ((toU 4 pos + r.1) % 2 ^ 32)
    readPositions n pos r.2 >>= fun q => .ok (pos :: q.1, q.2)

/-- The text of a term, index.c 1690–1697, into a buffer of MAX_WORD_SIZE bytes that keeps the
previous one. -/
def readText (buf : Term) : Rd Term := fun l =>
  rdInt l >>= fun start =>
  rdInt start.2 >>= fun len =>
  rdBytes len.1 len.2 >>= fun r =>
  if start.1 + len.1 < 255 ∧ start.1 ≤ buf.length then .ok (buf.take start.1 ++ r.1, r.2) else .ub

/-- The loop over the terms, index.c 1688–1712. -/
def readTerms (positions : Bool) : Nat → Term → Rd (List TVTerm)
  | 0, _, l => .ok ([], l)
  | n + 1, buf, l =>
    readText buf l >>= fun t =>
    rdInt t.2 >>= fun f =>
    (if positions then readPositions f.1 0 f.2 >>= fun r => .ok (some r.1, r.2) else .ok (none, f.2)) >>= fun p =>
    readTerms positions n t.1 p.2 >>= fun q =>
    .ok (⟨t.1, f.1, p.1⟩ :: q.1, q.2)

/-- The loop over the offsets, index.c 1717–1722. -/
def readOffsets : Nat → Int → Rd (List (Int × Int))
  | 0, _, l => .ok ([], l)
  | n + 1, off, l =>
    rdVll l >>= fun s =>
    rdVll s.2 >>= fun e =>
    let a := off + toS 8 s.1
    let b := a + toS 8 e.1
    readOffsets n b e.2 >>= fun q => .ok ((a, b) :: q.1, q.2)

/-- fr_read_term_vector, index.c 1668–1726. -/
def readTV (fis : FIS) (fieldNum : Nat) : Rd TV := fun l =>
  Res.ofOption (byNumber fis fieldNum) >>= fun fi =>
  rdInt l >>= fun n =>
  if n.1 > 0 then
    readTerms (storePositions fi) n.1 [] n.2 >>= fun ts =>
    if storeOffsets fi then
      rdInt ts.2 >>= fun c =>
      readOffsets c.1 0 c.2 >>= fun os =>
      .ok (⟨fieldNum, fi.name, ts.1, some os.1⟩, os.2)
    else .ok (⟨fieldNum, fi.name, ts.1, none⟩, ts.2)
  else .ok (⟨fieldNum, fi.name, [], none⟩, n.2)

/-- Where the index of the term vectors of a document is, index.c 1739–1742 and 1779–1782. -/
def tvIndexPtr (fr : FR) (n : Nat) : Res Nat :=
  if n * 12 < 2 ^ 31 then
    rdBE 8 0 (fr.fdx.drop (n * 12)) >>= fun p =>
    rdBE 4 0 p.2 >>= fun o =>
    .ok (p.1 + o.1)
  else .ub

/-- Seeking to a place before the beginning fails. -/
def seekTo (file : List Byte) (p : Int) : Res (List Byte) :=
  if p < 0 then .raise .io else .ok (file.drop p.toNat)

/-- The loop of fr_get_field_tv, index.c 1788–1791. -/
def findField (fieldNum : Nat) : Nat → (fnum : Int) → (offset : Nat) → Rd (Int × Nat)
  | 0, fnum, offset, l => .ok ((fnum, offset), l)
  | n + 1, fnum, offset, l =>
    if fnum ≠ fieldNum then
      rdInt l >>= fun f =>
      rdInt f.2 >>= fun s =>
      findField fieldNum n f.1 (offset + s.1) s.2
    else .ok ((fnum, offset), l)

/-- fr_get_field_tv, index.c 1767–1800. -/
def frGetFieldTv (fr : FR) (n : Int) (fieldNum : Nat) : Res (Option TV) :=
  if n ≥ 0 ∧ n < fr.size then
    tvIndexPtr fr n.toNat >>= fun ptr =>
    rdInt (fr.fdt.drop ptr) >>= fun cnt =>
    findField fieldNum cnt.1 (-1) 0 cnt.2 >>= fun r =>
    if r.1.1 = fieldNum then
      seekTo fr.fdt ((ptr : Int) - r.1.2) >>= fun l =>
      readTV fr.fis fieldNum l >>= fun t => .ok (some t.1)
    else .ok none
  else .ok none

/-- The first loop of fr_get_tv, index.c 1750–1755: the fields, last first, and the sum of their
sizes. -/
def readTvIndex : Nat → Rd (List Nat × Nat)
  | 0, l => .ok (([], 0), l)
  | n + 1, l =>
    rdInt l >>= fun f =>
    rdInt f.2 >>= fun s =>
    readTvIndex n s.2 >>= fun r =>
    .ok ((f.1 :: r.1.1, s.1 + r.1.2), r.2)

/-- The second loop of fr_get_tv, index.c 1758–1761; the result is a hash table by field name. -/
def readTvs (fis : FIS) : List Nat → List TV → Rd (List TV)
  | [], acc, l => .ok (acc, l)
  | f :: fs, acc, l =>
    readTV fis f l >>= fun t =>
    readTvs fis fs (acc.filter (fun u => u.field != t.1.field) ++ [t.1]) t.2

/-- fr_get_tv, index.c 1728–1765. -/
def frGetTv (fr : FR) (n : Int) : Res (List TV) :=
  if n ≥ 0 ∧ n < fr.size then
    tvIndexPtr fr n.toNat >>= fun ptr =>
    rdInt (fr.fdt.drop ptr) >>= fun cnt =>
    readTvIndex cnt.1 cnt.2 >>= fun r =>
    seekTo fr.fdt ((ptr : Int) - r.1.2) >>= fun l =>
    readTvs fr.fis r.1.1.reverse [] l >>= fun q => .ok q.1
  else .ok []

/-- sr_term_vector, index.c 4554–4566, of a segment that has a fields reader. -/
def srTermVector (fr : FR) (n : Int) (field : Name) : Res (Option TV) :=
  match getField fr.fis field with
  | none => .ok none
  | some fi => if storeTermVector fi then frGetFieldTv fr n fi.number else .ok none

/-! ### One document -/

/-- What dw_add_doc, index.c 5648–5690, does to the fields writer: the document, then for each of
its fields with term vectors (number, posting lists in order, offsets) fw_add_postings, then the
index. -/
def addDocument (Z : Zip) (w : FW) (doc : Doc) (tvs : List (Nat × List PL × List (Int × Int))) : Res FW :=
  fwAddDoc Z w doc >>= fun w =>
  tvs.foldlM (fun w t => fwAddPostings w t.1 t.2.1 t.2.2) w >>= fun w =>
  .ok (fwWriteTvIndex w)

end Ferret.Fields
