import Verif.Model.Fields
import Verif.Model.Postings
import Verif.Spec.Inverted

/-!
The document writer: dw_add_posting, dw_add_offsets, dw_invert_field, dw_add_doc, dw_sort_postings and the
norms and posting lists given to dw_flush, c/src/index.c 5196–5265, 5335–5365, 5401–5413, 5509–5690.

The analyzer is a function from a field's name and a text to tokens. The hash tables of posting lists, keyed by
text, are lists in order of insertion (C05); texts have no zero byte, so `strcmp` is the order of lists of bytes.
`dw->curr_plists` points to posting lists of the field: it is the list of their texts. The capacity of
`dw->offsets` is not modelled, as what it grows by is zeroed. The fields writer (`Model/Fields`) gets its calls for
one document after the document is inverted. Norms are a function of the field, the document's number (boosts) and the number of
terms (`Model/Norm` has the byte). Sums of positions are `int`s.
-/

namespace Ferret.Inv
open Ferret Ferret.Spec Ferret.Fis Ferret.Fields Ferret.Dict Ferret.Expand Ferret.Post

/-- `fld_inv->plists`. -/
abbrev Plists := List (Term × List Posting)

/-- h_get of a posting list. -/
def getPl (pls : Plists) (t : Term) : Option (List Posting) := (pls.find? fun x => decide (x.1 = t)).map (·.2)

/-- A posting list changes. -/
def setPl (pls : Plists) (t : Term) (ps : List Posting) : Plists := pls.map fun x => if x.1 = t then (t, ps) else x

/-- pl_add_occ, index.c 5223–5227. -/
def plAddOcc (ps : List Posting) (pos : Int) : Res (List Posting) :=
  Res.ofOption ps.getLast? >>= fun p => .ok (ps.dropLast ++ [{ p with freq := p.freq + 1, occ := p.occ ++ [pos] }])

/-- dw_add_posting, index.c 5520–5548, with p_new 5196–5204, pl_new 5212–5221 and pl_add_posting 5229–5233: the
texts of the document and the posting lists. -/
def addPosting (curr : List Term) (pls : Plists) (doc : Nat) (text : Term) (pos : Int) : Res (List Term × Plists) :=
  if text ∈ curr then
    Res.ofOption (getPl pls text) >>= fun ps =>
    plAddOcc ps pos >>= fun ps => .ok (curr, setPl pls text ps)
  else
    match getPl pls text with
    | none => .ok (curr ++ [text], pls ++ [(text, [⟨doc, 1, [pos]⟩])])
    | some ps => .ok (curr ++ [text], setPl pls text (ps ++ [⟨doc, 1, [pos]⟩]))

/-- dw_add_offsets, index.c 5550–5563. -/
def addOffsets (offs : List (Int × Int)) (pos : Nat) (start stop : Int) : List (Int × Int) :=
  (offs ++ List.replicate (pos + 1 - offs.length) (0, 0)).set pos (start, stop)

/-- The variables of dw_invert_field. -/
structure Run where
  curr : List Term
  pls : Plists
  offs : List (Int × Int)
  offSize : Nat
  pos : Int
  num : Nat

/-- A term at a position: dw_add_posting, and dw_add_offsets if the field stores offsets, index.c 5594–5598,
5607–5608 and 5629–5634; one more term. -/
def place (offsets : Bool) (doc : Nat) (text : Term) (pos : Int) (start stop : Int) (r : Run) : Res Run :=
  addPosting r.curr r.pls doc text pos >>= fun p =>
  .ok (if offsets then ⟨p.1, p.2, addOffsets r.offs pos.toNat start stop, pos.toNat + 1, r.pos, r.num + 1⟩
    else ⟨p.1, p.2, r.offs, r.offSize, r.pos, r.num + 1⟩)

/-- The loops over the tokens of a value, index.c 5587–5602 and 5605–5612. Without offsets a position below 0 is
kept. -/
def tokenLoop (offsets : Bool) (max : Int) (doc : Nat) (start : Int) : List Token → Run → Res Run
  | [], r => .ok r
  | tk :: tks, r =>
    let pos := r.pos + tk.posInc
    let pos := if offsets = true ∧ pos < 0 then 0 else pos
    place offsets doc tk.text pos (start + tk.start) (start + tk.stop) { r with pos := pos } >>= fun r' =>
    if (r.num : Int) ≥ max then .ok r' else tokenLoop offsets max doc start tks r'

/-- The loop over the values of a tokenized field, index.c 5583–5616. -/
def valueLoop (analyze : List Byte → List Token) (offsets : Bool) (max : Int) (doc : Nat) : Int → List (List Byte) → Run → Res Run
  | _, [], r => .ok r
  | start, d :: ds, r =>
    tokenLoop offsets max doc start (analyze d) r >>= fun r =>
    valueLoop analyze offsets max doc (start + d.length + 1) ds r

/-- The text of a value that is not tokenized, index.c 5623–5628; MAX_WORD_SIZE is 255. -/
def wholeText (d : List Byte) : Term := if d.length > 255 then d.take 254 else d

/-- The loop over the values of a field that is not tokenized, index.c 5622–5636; `num` is `i`. -/
def wholeLoop (offsets : Bool) (doc : Nat) : Int → List (List Byte) → Run → Res Run
  | _, [], r => .ok r
  | start, d :: ds, r =>
    place offsets doc (wholeText d) r.num start (start + d.length) r >>= fun r =>
    wholeLoop offsets doc (start + d.length + 1) ds r

/-- What a document writer is given: the analyzer, the norms, and the configuration. -/
structure Cfg where
  analyze : Name → List Byte → List Token
  norm : FI → Nat → Nat → Byte
  maxField : Int
  maxBuffered : Nat

/-- dw_invert_field, index.c 5565–5640, of a field with posting lists `pls`. -/
def invertField (cfg : Cfg) (fi : FI) (doc : Nat) (f : DocF) (pls : Plists) (offs : List (Int × Int)) : Res Run :=
  if isTokenized fi then valueLoop (cfg.analyze f.name) (storeOffsets fi) cfg.maxField doc 0 f.data ⟨[], pls, offs, 0, -1, 0⟩
  else wholeLoop (storeOffsets fi) doc 0 f.data ⟨[], pls, offs, 0, -1, 0⟩

/-- `FieldInverter`, index.h 821–833. -/
structure FldInv where
  plists : Plists
  norms : List Byte

/-- The inverted part of a `DocWriter`, index.h 836–856: the inverters by field number, the offsets, and the number of
documents. -/
structure Inv where
  fields : List (Nat × FldInv)
  offs : List (Int × Int)
  docNum : Nat

/-- An empty document writer, dw_open 5456–5486; `dw->offsets` begins zeroed. -/
def invNew : Inv := ⟨[], [], 0⟩

/-- h_get_int of a field inverter. -/
def getInv (x : List (Nat × FldInv)) (n : Nat) : Option FldInv := (x.find? fun e => e.1 == n).map (·.2)

/-- The inverter of a field becomes this. -/
def setInv (x : List (Nat × FldInv)) (n : Nat) (f : FldInv) : List (Nat × FldInv) := (n, f) :: x.filter fun e => !(e.1 == n)

/-- dw_get_fld_inv, index.c 5509–5518, with fld_inv_new 5246–5262. -/
def inverterOf (cfg : Cfg) (x : List (Nat × FldInv)) (n : Nat) : FldInv :=
  (getInv x n).getD ⟨[], List.replicate cfg.maxBuffered 0⟩

/-- Putting a posting list in its place by pl_cmp, index.c 5235–5238. -/
def insertPl (x : Term × List Posting) : Plists → Plists
  | [] => [x]
  | y :: ys => if y.1 < x.1 then y :: insertPl x ys else x :: y :: ys

/-- dw_sort_postings, index.c 5348–5365: posting lists of different terms have one order. -/
def sortPls : Plists → Plists
  | [] => []
  | x :: xs => insertPl x (sortPls xs)

/-- The posting lists of the document's terms: those `dw->curr_plists` points to. -/
def currPls (pls : Plists) : List Term → Res Plists
  | [] => .ok []
  | t :: ts =>
    Res.ofOption (getPl pls t) >>= fun ps =>
    currPls pls ts >>= fun r => .ok ((t, ps) :: r)

/-- What fw_add_postings, index.c 1985–2007, takes of each posting list: the last posting. -/
def lastOnes : Plists → Res (List PL)
  | [] => .ok []
  | (t, ps) :: r =>
    Res.ofOption ps.getLast? >>= fun p =>
    lastOnes r >>= fun q => .ok (⟨t, p.occ⟩ :: q)

/-- The loop of dw_add_doc over the fields, index.c 5661–5687: the writer and the calls of fw_add_postings. -/
def invertFields (cfg : Cfg) (t : FIS) : Doc → Inv → Res (Inv × List (Nat × List PL × List (Int × Int)))
  | [], x => .ok (x, [])
  | f :: fs, x =>
    Res.ofOption (getField t f.name) >>= fun fi =>
    if isIndexed fi then
      let inv := inverterOf cfg x.fields fi.number
      invertField cfg fi x.docNum f inv.plists x.offs >>= fun r =>
      (if storeTermVector fi then
        currPls r.pls r.curr >>= fun c =>
        lastOnes (sortPls c) >>= fun l => .ok [(fi.number, l, r.offs.take r.offSize)]
       else .ok []) >>= fun tv =>
      (if hasNorms fi then
        if x.docNum < inv.norms.length then .ok (inv.norms.set x.docNum (cfg.norm fi x.docNum r.num)) else .ub
       else .ok inv.norms) >>= fun norms =>
      let x' : Inv := ⟨setInv x.fields fi.number ⟨r.pls, norms⟩, List.replicate r.offSize (0, 0) ++ r.offs.drop r.offSize, x.docNum⟩
      invertFields cfg t fs x' >>= fun q => .ok (q.1, tv ++ q.2)
    else invertFields cfg t fs x

/-- dw_add_doc, index.c 5648–5690. -/
def addDoc (Z : Zip) (cfg : Cfg) (w : FW) (x : Inv) (doc : Doc) : Res (FW × Inv) :=
  fwAddDoc Z w doc >>= fun w =>
  invertFields cfg w.fis doc x >>= fun r =>
  r.2.foldlM (fun w t => fwAddPostings w t.1 t.2.1 t.2.2) w >>= fun w =>
  .ok (fwWriteTvIndex w, { r.1 with docNum := r.1.docNum + 1 })

/-- The fields and posting lists dw_flush writes, index.c 5401–5413. -/
def flushInput (t : FIS) (x : Inv) : List (Nat × Plists) :=
  t.fields.filterMap fun fi =>
    if isIndexed fi then (getInv x.fields fi.number).map fun f => (fi.number, sortPls f.plists) else none

/-- The norms dw_flush writes, index.c 5407–5409 and dw_write_norms 5335–5344: per field, a byte per document. -/
def flushNorms (t : FIS) (x : Inv) : List (Nat × List Byte) :=
  t.fields.filterMap fun fi =>
    if isIndexed fi ∧ omitNorms fi = false then (getInv x.fields fi.number).map fun f => (fi.number, f.norms.take x.docNum) else none

end Ferret.Inv
