import Verif.Spec.Dir

/-!
Field infos (c/src/index.c 213–460, c/include/index.h 73–152). Symbols are interned strings, so
they are compared by content (c/src/symbol.c); the dictionary of a table, a hash table, is a search
of its fields by name (hash tables refine finite maps: C05). Boosts are the 32 bits of the float.
Streams carry bytes (C08, C09). Names are C strings and hold no NUL.
-/

namespace Ferret.Fis
open Ferret Ferret.Spec

/-- FrtFieldInfo, index.h 107–114. -/
structure FI where
  name : Name
  boost : Nat
  bits : Nat
  number : Nat
  deriving DecidableEq, Repr

/-- FrtFieldInfos, index.h 142–152: the defaults and the fields in order; the capacity is not kept. -/
structure FIS where
  store : Nat
  index : Nat
  termVector : Nat
  fields : List FI
  deriving DecidableEq, Repr

/-- fi_set_store, index.c 219–231 (FI_IS_STORED_BM 1, FI_IS_COMPRESSED_BM 2). -/
def setStore (bits store : Nat) : Nat :=
  match store with
  | 1 => bits ||| 1
  | 2 => bits ||| (2 ||| 1)
  | _ => bits

/-- fi_set_index, index.c 233–252 (FI_IS_INDEXED_BM 4, FI_IS_TOKENIZED_BM 8, FI_OMIT_NORMS_BM 16). -/
def setIndex (bits index : Nat) : Nat :=
  match index with
  | 3 => bits ||| (4 ||| 8)
  | 1 => bits ||| 4
  | 7 => bits ||| (16 ||| 4 ||| 8)
  | 5 => bits ||| (16 ||| 4)
  | _ => bits

/-- fi_set_term_vector, index.c 254–273 (FI_STORE_TERM_VECTOR_BM 32, FI_STORE_POSITIONS_BM 64,
FI_STORE_OFFSETS_BM 128). -/
def setTermVector (bits tv : Nat) : Nat :=
  match tv with
  | 1 => bits ||| 32
  | 3 => bits ||| (32 ||| 64)
  | 5 => bits ||| (32 ||| 128)
  | 7 => bits ||| (32 ||| 64 ||| 128)
  | _ => bits

/-- fi_check_params, index.c 275–282. -/
def checkParams (index tv : Nat) : Res Unit := if index = 0 ∧ tv ≠ 0 then .raise .arg else .ok ()

/-- The bits of 1.0f. -/
def boostOne : Nat := 0x3F800000

/-- fi_new, index.c 284–300; the number is set when the field is added to a table. -/
def fiNew (name : Name) (store index tv : Nat) : Res FI :=
  checkParams index tv >>= fun _ =>
    .ok ⟨name, boostOne, setTermVector (setIndex (setStore 0 store) index) tv, 0⟩

/-- fi_is_stored … fi_has_norms, index.h 123–132. -/
def isStored (f : FI) : Bool := f.bits &&& 1 != 0
def isCompressed (f : FI) : Bool := f.bits &&& 2 != 0
def isIndexed (f : FI) : Bool := f.bits &&& 4 != 0
def isTokenized (f : FI) : Bool := f.bits &&& 8 != 0
def omitNorms (f : FI) : Bool := f.bits &&& 16 != 0
def storeTermVector (f : FI) : Bool := f.bits &&& 32 != 0
def storePositions (f : FI) : Bool := f.bits &&& 64 != 0
def storeOffsets (f : FI) : Bool := f.bits &&& 128 != 0
def hasNorms (f : FI) : Bool := f.bits &&& 20 == 4

/-- fis_new, index.c 337–351. -/
def fisNew (store index tv : Nat) : Res FIS := checkParams index tv >>= fun _ => .ok ⟨store, index, tv, []⟩

/-- fis_get_field, index.c 369–372. -/
def getField (t : FIS) (name : Name) : Option FI := t.fields.find? (fun f => f.name == name)

/-- fis_get_field_num, index.c 374–383. -/
def getFieldNum (t : FIS) (name : Name) : Int :=
  match getField t name with
  | some f => f.number
  | none => -1

/-- fis_by_number, index.c 395–403. -/
def byNumber (t : FIS) (n : Nat) : Option FI := t.fields[n]?

/-- fis_add_field, index.c 353–367. -/
def addField (t : FIS) (f : FI) : Res FIS :=
  match getField t f.name with
  | some _ => .raise .arg
  | none => .ok { t with fields := t.fields ++ [{ f with number := t.fields.length }] }

/-- fis_get_or_add_field, index.c 385–393; the table afterwards. -/
def getOrAdd (t : FIS) (name : Name) : Res FIS :=
  match getField t name with
  | some _ => .ok t
  | none => fiNew name t.store t.index t.termVector >>= addField t

/-- What fis_write writes of one field, index.c 453–459. -/
def fieldBytes (f : FI) : List Byte := vstring f.name ++ (beBytes 4 f.boost ++ vint f.bits)

/-- fis_write, index.c 442–460. -/
def fisWrite (t : FIS) : List Byte :=
  vint t.store ++ (vint t.index ++ (vint t.termVector ++ (vint t.fields.length ++ (t.fields.map fieldBytes).flatten)))

/-- One field of fis_read, index.c 422–430. -/
def fieldRead : Rd FI := fun l =>
  rdString l >>= fun n => rdBE 4 0 n.2 >>= fun b => rdVint b.2 >>= fun bits => .ok (⟨n.1, b.1, bits.1, 0⟩, bits.2)

/-- The loop of fis_read, index.c 421–433. -/
def fieldsRead : Nat → FIS → Rd FIS
  | 0, t, l => .ok (t, l)
  | n + 1, t, l => fieldRead l >>= fun r => addField t r.1 >>= fun t => fieldsRead n t r.2

/-- The part of fis_read before there is a table, index.c 417–420. -/
def headRead : Rd FIS := fun l =>
  rdVint l >>= fun s => rdVint s.2 >>= fun i => rdVint i.2 >>= fun v =>
    fisNew s.1 i.1 v.1 >>= fun t => .ok (t, v.2)

/-- fis_read, index.c 405–440. An exception raised while `fis` is still NULL is undefined behaviour:
the handler at 436 dereferences it. The count is an int; reading nothing if it is negative. -/
def fisRead : Rd FIS := fun l =>
  match headRead l with
  | .ok (t, l) => rdVint l >>= fun n => fieldsRead (if toS 4 n.1 > 0 then n.1 else 0) t n.2
  | _ => .ub

end Ferret.Fis
