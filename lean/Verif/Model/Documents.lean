import Verif.Model.Basic
import Verif.Spec.Documents

/-!
Documents and their fields as objects in memory: c/src/document.c 12–155 (df_new, df_add_data_len, df_add_data, df_destroy, df_to_s, doc_new, doc_add_field, doc_get_field, doc_to_s,
doc_destroy), c/src/symbol.c 15–36 (intern, intern_and_free), c/src/global.c 174–181 (strapp), c/src/ind.c 260–277 (index_add_string, index_add_array).

Memory is a list of blocks; an address is a position in it and is not used again. A block that was freed is `gone`: to read it, to write to it or to free it again is undefined. The arrays of a
field and of a document have the length that was allocated; a slot nothing was written to is `none`, and to read it is undefined, as is reading or writing beyond the end.

Simplifications.
* The two arrays of a field (data and lengths) are one array of pairs. They belong to the block of the field, as the array of fields and the dictionary belong to that of the document.
* The dictionary of a document is a list of symbols and addresses in the order they were put in (C05); doc_destroy frees the fields in this order, h_destroy in that of the table.
* A symbol is its position in the table of symbols; the table is a list (C05). Symbols are never freed (hash_finalize).
* Boosts are not here: they are set and read directly. `is_compressed` of a field made by df_new is never read.
* What a text is printed into is a list of the bytes written so far together with how many were allocated.
* A call that raises leaves memory as it was: doc_add_field raises before it changes anything.
-/

namespace Ferret.Docs
open Ferret Ferret.Spec

/-- DocField, document.h 18–27. -/
structure DF where
  name : Nat
  size : Nat
  data : List (Option (Nat × Int))
  destroy : Bool
  deriving DecidableEq

/-- Document, document.h 42–49. -/
structure Doc where
  dict : List (Nat × Nat)
  size : Nat
  fields : List (Option Nat)
  deriving DecidableEq

inductive Cell where
  /-- A text of the program, with a NUL after it. -/
  | str (b : List Byte)
  | field (f : DF)
  | doc (d : Doc)
  | gone
  deriving DecidableEq

structure St where
  heap : List Cell
  syms : List (List Byte)
  deriving DecidableEq

/-- Reading a text. -/
def getStr (h : List Cell) (a : Nat) : Res (List Byte) :=
  match h[a]? with
  | some (.str b) => .ok b
  | _ => .ub

/-- Reading a field. -/
def getField (h : List Cell) (a : Nat) : Res DF :=
  match h[a]? with
  | some (.field f) => .ok f
  | _ => .ub

/-- Reading a document. -/
def getDoc (h : List Cell) (a : Nat) : Res Doc :=
  match h[a]? with
  | some (.doc d) => .ok d
  | _ => .ub

/-- free: of something that is there. -/
def release (h : List Cell) (a : Nat) : Res (List Cell) :=
  match h[a]? with
  | none => .ub
  | some .gone => .ub
  | some _ => .ok (h.set a .gone)

/-- intern and intern_and_free, symbol.c 15–36. -/
def intern (syms : List (List Byte)) (s : List Byte) : List (List Byte) × Nat :=
  match syms.findIdx? (fun x => decide (x = s)) with
  | some i => (syms, i)
  | none => (syms ++ [s], syms.length)

/-- df_new, document.c 12–23. -/
def dfNew (name : Nat) : DF := ⟨name, 0, [none], false⟩

/-- Storing in an array at its `size`, after making it `k` times as long if it is full: document.c 27–33 and 115–119. The capacity is an int. -/
def store {α : Type} (k : Nat) (arr : List (Option α)) (size : Nat) (x : α) : Res (List (Option α)) :=
  (if size ≥ arr.length then
    (if arr.length * k < 2 ^ 31 then .ok (arr ++ List.replicate (arr.length * k - arr.length) none) else .ub)
   else .ok arr) >>= fun arr =>
  if size < arr.length then .ok (arr.set size (some x)) else .ub

/-- df_add_data_len, document.c 25–36. -/
def dfAddDataLen (h : List Cell) (f a : Nat) (len : Int) : Res (List Cell) :=
  getField h f >>= fun df => store 4 df.data df.size (a, len) >>= fun arr =>
  .ok (h.set f (.field { df with data := arr, size := df.size + 1 }))

/-- strlen of a text with a NUL after it. -/
def strlen (b : List Byte) : Nat := (b.takeWhile (fun c => decide (c ≠ 0))).length

/-- df_add_data, document.c 38–41. -/
def dfAddData (h : List Cell) (f a : Nat) : Res (List Cell) :=
  getStr h a >>= fun b => dfAddDataLen h f a (strlen b)

/-- The first `n` slots of an array, from slot `i` on. -/
def slots {α : Type} (arr : List (Option α)) : Nat → Nat → Res (List α)
  | _, 0 => .ok []
  | i, n + 1 =>
    match arr[i]? with
    | some (some x) => slots arr (i + 1) n >>= fun r => .ok (x :: r)
    | _ => .ub

/-- Freeing several blocks, document.c 47–49. -/
def releaseAll (h : List Cell) : List Nat → Res (List Cell)
  | [] => .ok h
  | a :: as => release h a >>= fun h => releaseAll h as

/-- df_destroy, document.c 43–54. -/
def dfDestroy (h : List Cell) (f : Nat) : Res (List Cell) :=
  getField h f >>= fun df =>
  (if df.destroy then slots df.data 0 df.size >>= fun xs => releaseAll h (xs.map (·.1)) else .ok h) >>= fun h =>
  release h f

/-- Adding ints. -/
def addI (a b : Int) : Res Int := if -(2 ^ 31) ≤ a + b ∧ a + b < 2 ^ 31 then .ok (a + b) else .ub

/-- document.c 64–66. -/
def sumLens : Int → List (Nat × Int) → Res Int
  | len, [] => .ok len
  | len, x :: xs => addI x.2 4 >>= fun y => addI len y >>= fun len => sumLens len xs

/-- strapp (global.c 174–181) and memcpy into a buffer of `cap` bytes. -/
def app (cap : Nat) (out bs : List Byte) : Res (List Byte) := if out.length + bs.length ≤ cap then .ok (out ++ bs) else .ub

/-- memcpy(s, data, len) of a text, document.c 81. -/
def appData (h : List Cell) (cap : Nat) (out : List Byte) (x : Nat × Int) : Res (List Byte) :=
  getStr h x.1 >>= fun b => if 0 ≤ x.2 ∧ x.2 ≤ b.length + 1 then app cap out ((b ++ [0]).take x.2.toNat) else .ub

/-- The loop over the data, document.c 76–84. -/
def showData (h : List Cell) (cap : Nat) : List Byte → Bool → List (Nat × Int) → Res (List Byte)
  | out, _, [] => .ok out
  | out, first, x :: xs =>
    (if first then .ok out else app cap out [44, 32]) >>= fun out => app cap out [34] >>= fun out => appData h cap out x >>= fun out =>
    app cap out [34] >>= fun out => showData h cap out false xs

/-- Setting the NUL at the end and returning the text. -/
def finish (cap : Nat) (out : List Byte) : Res (List Byte) := if out.length < cap then .ok out else .ub

/-- df_to_s, document.c 60–90. -/
def dfToS (st : St) (f : Nat) : Res (List Byte) :=
  getField st.heap f >>= fun df => Res.ofOption st.syms[df.name]? >>= fun name => slots df.data 0 df.size >>= fun xs =>
  sumLens 0 xs >>= fun len => addI name.length len >>= fun c => addI c 5 >>= fun c =>
  let cap := c.toNat
  app cap [] name >>= fun out => app cap out [58, 32] >>= fun out =>
  (if df.size > 1 then app cap out [91] else .ok out) >>= fun out =>
  showData st.heap cap out true xs >>= fun out =>
  (if df.size > 1 then app cap out [93] else .ok out) >>= fun out =>
  finish cap out

/-- doc_new, document.c 98–107. -/
def docNew : Doc := ⟨[], 0, List.replicate 8 none⟩

/-- doc_add_field, document.c 109–122. -/
def docAddField (h : List Cell) (d f : Nat) : Res (List Cell) :=
  getDoc h d >>= fun doc => getField h f >>= fun df =>
  if doc.dict.any (fun p => decide (p.1 = df.name)) then .raise .exception
  else store 2 doc.fields doc.size f >>= fun arr =>
    .ok (h.set d (.doc ⟨doc.dict ++ [(df.name, f)], doc.size + 1, arr⟩))

/-- doc_get_field, document.c 124–127. -/
def docGetField (h : List Cell) (d : Nat) (name : Nat) : Res (Option Nat) :=
  getDoc h d >>= fun doc => .ok ((doc.dict.find? (fun p => decide (p.1 = name))).map (·.2))

/-- The texts of the fields, document.c 136–138. -/
def fieldTexts (st : St) : List Nat → Res (List (List Byte))
  | [] => .ok []
  | f :: fs => dfToS st f >>= fun t => fieldTexts st fs >>= fun r => .ok (t :: r)

/-- document.c 138: the sum of the lengths. -/
def sumTexts : Int → List (List Byte) → Res Int
  | len, [] => .ok len
  | len, t :: ts => addI len (strlen t + 5 : Nat) >>= fun len => sumTexts len ts

/-- document.c 142–145. -/
def showTexts (cap : Nat) : List Byte → List (List Byte) → Res (List Byte)
  | out, [] => .ok out
  | out, t :: ts =>
    app cap out ([32, 32, 61, 62] ++ t.takeWhile (fun c => decide (c ≠ 0)) ++ [10]) >>= fun out => finish cap out >>= fun out => showTexts cap out ts

/-- "Document [\n". -/
def docHead : List Byte := [68, 111, 99, 117, 109, 101, 110, 116, 32, 91, 10]

/-- doc_to_s, document.c 129–148. -/
def docToS (st : St) (d : Nat) : Res (List Byte) :=
  getDoc st.heap d >>= fun doc => slots doc.fields 0 doc.size >>= fun fs => fieldTexts st fs >>= fun ts =>
  sumTexts 0 ts >>= fun len => addI len 12 >>= fun c =>
  let cap := c.toNat
  app cap [] docHead >>= fun out => finish cap out >>= fun out => showTexts cap out ts

/-- df_destroy of each field of the dictionary, by h_destroy. -/
def destroyFields (h : List Cell) : List (Nat × Nat) → Res (List Cell)
  | [] => .ok h
  | p :: ps => dfDestroy h p.2 >>= fun h => destroyFields h ps

/-- doc_destroy, document.c 150–155. -/
def docDestroy (h : List Cell) (d : Nat) : Res (List Cell) :=
  getDoc h d >>= fun doc => destroyFields h doc.dict >>= fun h => release h d

/-- The calls of a program: it puts a text into memory of its own; df_new(intern(name)); df->destroy_data = b; df_add_data; df_add_data_len; doc_new; doc_add_field;
doc_get_field(doc, intern(name)); df_to_s; doc_to_s; free of a text of its own; df_destroy; doc_destroy (document.c 12–155). -/
def step (st : St) : DocCall → Res (DocOut × St)
  | .text b => .ok (.ref st.heap.length, { st with heap := st.heap ++ [.str b] })
  | .field name =>
    let p := intern st.syms name
    .ok (.ref st.heap.length, ⟨st.heap ++ [.field (dfNew p.2)], p.1⟩)
  | .own f b => getField st.heap f >>= fun df => .ok (.done, { st with heap := st.heap.set f (.field { df with destroy := b }) })
  | .add f s => dfAddData st.heap f s >>= fun h => .ok (.ref f, { st with heap := h })
  | .addLen f s len => dfAddDataLen st.heap f s len >>= fun h => .ok (.ref f, { st with heap := h })
  | .doc => .ok (.ref st.heap.length, { st with heap := st.heap ++ [.doc docNew] })
  | .put d f =>
    match docAddField st.heap d f with
    | .ok h => .ok (.ref f, { st with heap := h })
    | .raise _ => .ok (.error, st)
    | .ub => .ub
  | .get d name =>
    let p := intern st.syms name
    docGetField st.heap d p.2 >>= fun r => .ok ((match r with | some f => .ref f | none => .null), { st with syms := p.1 })
  | .showField f => dfToS st f >>= fun t => .ok (.bytes t, st)
  | .showDoc d => docToS st d >>= fun t => .ok (.bytes t, st)
  | .dropText s => getStr st.heap s >>= fun _ => release st.heap s >>= fun h => .ok (.done, { st with heap := h })
  | .dropField f => dfDestroy st.heap f >>= fun h => .ok (.done, { st with heap := h })
  | .dropDoc d => docDestroy st.heap d >>= fun h => .ok (.done, { st with heap := h })

/-- Some calls one after the other. -/
def run (st : St) : List DocCall → Res (List DocOut × St)
  | [] => .ok ([], st)
  | c :: cs => step st c >>= fun p => run p.2 cs >>= fun q => .ok (p.1 :: q.1, q.2)

/-- doc_add_field(doc, df_add_data(df_new(def_field), estrdup(text))), ind.c 263 and 273: a copy of the text, a field and the field put into the document. -/
def addCopy (h : List Cell) (d sym : Nat) (text : List Byte) : Res (List Cell) :=
  dfAddData (h ++ [.field (dfNew sym), .str (text.takeWhile (fun c => decide (c ≠ 0)))]) h.length (h.length + 1) >>= fun h' =>
  docAddField h' d h.length

/-- index_add_string, ind.c 260–266; `add` is index_add_doc, which reads the document. -/
def indexAddString (add : St → Nat → Res Unit) (st : St) (sym : Nat) (text : List Byte) : Res St :=
  let d := st.heap.length
  addCopy (st.heap ++ [.doc docNew]) d sym text >>= fun h => add { st with heap := h } d >>= fun _ => docDestroy h d >>= fun h => .ok { st with heap := h }

/-- The loop of index_add_array, ind.c 272–275. -/
def addCopies (h : List Cell) (d sym : Nat) : List (List Byte) → Res (List Cell)
  | [] => .ok h
  | t :: ts => addCopy h d sym t >>= fun h => addCopies h d sym ts

/-- index_add_array, ind.c 268–277. -/
def indexAddArray (add : St → Nat → Res Unit) (st : St) (sym : Nat) (texts : List (List Byte)) : Res St :=
  let d := st.heap.length
  addCopies (st.heap ++ [.doc docNew]) d sym texts >>= fun h => add { st with heap := h } d >>= fun _ => docDestroy h d >>= fun h => .ok { st with heap := h }

end Ferret.Docs
