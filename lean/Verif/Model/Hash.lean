import Verif.Model.Basic
import Verif.Spec.Hash

/-!
Model of the hash table, c/src/hash.c.

Simplifications: allocation never fails; freeing keys and values is not represented; the table is
a list of `mask + 1` entries whether it lives in `smalltable` or in allocated memory; `unsigned
long` is 64 bits wide. The probe index `i` is an `int` in C, computed modulo 2^32 and only used
as `i & mask`; here it is a natural number used modulo the size of the table, which is a power
of two, so the indices are the same.
-/

namespace Ferret.Hash

variable {K V : Type}

/-- The field `key` of an entry: NULL, `dummy_key` (deleted), or a key. -/
inductive Slot (K : Type) where
  | null | dummy | live (k : K)
  deriving DecidableEq

/-- `HashEntry`, c/include/hash.h. -/
structure Entry (K V : Type) where
  hash : UInt64
  key : Slot K
  value : Option V

/-- A zeroed entry. -/
def Entry.zero : Entry K V := ⟨0, .null, none⟩

/-- `Hash`, c/include/hash.h; `mask` is `table.length - 1`. -/
structure Tbl (K V : Type) where
  fill : Nat
  size : Nat
  table : List (Entry K V)

/-- HASH_MINSIZE, c/include/hash.h. -/
def minSize : Nat := 8

/-- h_new, hash.c 166–210. -/
def new : Tbl K V := ⟨0, 0, List.replicate minSize .zero⟩

/-- The functions given to h_new, hash.c 196–210: `hash_i`, `eq_i`, and whether two keys are the
same pointer. With `ptr` it is a table made by h_new_ptr or h_new_int, hash.c 166–194, whose
`lookup_i` is h_lookup_ptr: then `hash k` is the value of the key itself. h_set_int stores
`dummy_int_key` for every key, so for such a table `same` is never true. -/
structure Fns (K : Type) where
  hash : K → UInt64
  eq : K → K → Bool
  same : K → K → Bool
  ptr : Bool

/-- `i = (i << 2) + i + perturb + 1`, hash.c 75, 103, 146. -/
def nextI (i perturb : Nat) : Nat := 5 * i + perturb + 1

/-- `perturb >>= PERTURB_SHIFT`, hash.c 74, 102, 145. -/
def shiftP (perturb : Nat) : Nat := perturb / 32

/-- More rounds than any probe takes: 13 until `perturb` is 0, then each slot once. -/
def probeFuel (n : Nat) : Nat := n + 14

/-- h_resize_lookup, hash.c 60–82, from slot `i`: the slot to use. The first slot and the later
ones are treated alike in C too, so the loop here starts with the first. -/
def resizeLoop (table : List (Entry K V)) : (fuel i perturb : Nat) → Res Nat
  | 0, _, _ => .ub
  | fuel + 1, i, perturb =>
    match table[i % table.length]? with
    | none => .ub
    | some he => match he.key with
      | .null => .ok (i % table.length)
      | _ => resizeLoop table fuel (nextI i perturb) (shiftP perturb)

/-- h_resize_lookup, hash.c 60–82. -/
def resizeLookup (table : List (Entry K V)) (hash : UInt64) : Res Nat :=
  resizeLoop table (probeFuel table.length) (hash.toNat % table.length) hash.toNat

/-- The test that ends a probe at a slot in use: hash.c 94 and 112 for h_lookup_ptr (which also
accepts a deleted slot), 132, 140 and 155–157 for h_lookup. -/
def hit (F : Fns K) (he : Entry K V) (k : K) : Bool :=
  if F.ptr then he.hash == F.hash k
  else match he.key with
    | .live k' => F.same k' k || (he.hash == F.hash k && F.eq k' k)
    | _ => false

/-- What a probe found: the slot, and whether the function stores the hash in it. -/
structure Found where
  idx : Nat
  store : Bool

/-- Remember the first deleted slot: hash.c 98, 115, 136, 160. -/
def keepFree (free : Option Nat) (s : Slot K) (i : Nat) : Option Nat :=
  match free, s with
  | none, .dummy => some i
  | f, _ => f

/-- h_lookup, hash.c 121–164, and h_lookup_ptr, hash.c 84–119, from slot `i`. The first slot
(`first`) is examined like the later ones, except that when it holds the key the hash is stored
in it again (also where C does not, when the keys are equal but not the same: the hash is then the
one the slot has). -/
def lookupLoop (F : Fns K) (table : List (Entry K V)) (k : K) : (fuel i perturb : Nat) → (free : Option Nat) → (first : Bool) → Res Found
  | 0, _, _, _, _ => .ub
  | fuel + 1, i, perturb, free, first =>
    match table[i % table.length]? with
    | none => .ub
    | some he => match he.key with
      | .null => match free with
        | some f => .ok ⟨f, true⟩
        | none => .ok ⟨i % table.length, true⟩
      | s =>
        if hit F he k then .ok ⟨i % table.length, first⟩
        else lookupLoop F table k fuel (nextI i perturb) (shiftP perturb) (keepFree free s (i % table.length)) false

/-- h_lookup and h_lookup_ptr, hash.c 84–164. -/
def lookupIdx (F : Fns K) (table : List (Entry K V)) (k : K) : Res Found :=
  lookupLoop F table k (probeFuel table.length) ((F.hash k).toNat % table.length) (F.hash k).toNat none true

/-- `he->hash = hash; return he;`: the slot found and the table, with the hash stored in it. -/
def lookup (F : Fns K) (t : Tbl K V) (k : K) : Res (Nat × Entry K V × Tbl K V) :=
  lookupIdx F t.table k >>= fun f =>
  match t.table[f.idx]? with
  | none => .ub
  | some e =>
    let e := if f.store then { e with hash := F.hash k } else e
    .ok (f.idx, e, { t with table := t.table.set f.idx e })

/-- h_get, hash.c 254–258. -/
def get (F : Fns K) (t : Tbl K V) (k : K) : Res (Option V × Tbl K V) :=
  lookup F t k >>= fun r => .ok (r.2.1.value, r.2.2)

/-- h_rem, hash.c 277–296; h_del, hash.c 260–275, is the same with a flag for the value. `size`
below zero is undefined here. -/
def rem (F : Fns K) (t : Tbl K V) (k : K) : Res (Option V × Bool × Tbl K V) :=
  lookup F t k >>= fun r =>
  match r.2.1.key with
  | .live _ =>
    if r.2.2.size = 0 then .ub
    else .ok (r.2.1.value, true, { r.2.2 with table := r.2.2.table.set r.1 { r.2.1 with key := .dummy, value := none }, size := r.2.2.size - 1 })
  | _ => .ok (none, false, r.2.2)

/-- `for (newsize = HASH_MINSIZE; newsize < min_newsize; newsize <<= 1)`, hash.c 306. -/
def newSize : (fuel n min : Nat) → Nat
  | 0, n, _ => n
  | fuel + 1, n, min => if n < min then newSize fuel (2 * n) min else n

/-- The loop of h_resize, hash.c 328–336, over the entries of the old table; it stops after `size`
active entries, and running off the table is undefined. -/
def resizeInto : (numActive : Nat) → List (Entry K V) → List (Entry K V) → Res (List (Entry K V))
  | 0, _, table => .ok table
  | _ + 1, [], _ => .ub
  | n + 1, e :: es, table =>
    match e.key with
    | .live _ => resizeLookup table e.hash >>= fun j => resizeInto n es (table.set j e)
    | _ => resizeInto (n + 1) es table

/-- h_resize, hash.c 298–341. -/
def resize (t : Tbl K V) (min : Nat) : Res (Tbl K V) :=
  resizeInto t.size t.table (List.replicate (newSize min minSize min) .zero) >>= fun table =>
  .ok { fill := t.size, size := t.size, table := table }

/-- SLOW_DOWN, c/include/hash.h. -/
def slowDown : Nat := 50000

/-- h_set_ext, hash.c 343–361: the slot to fill in, and whether the key is new. -/
def setExt (F : Fns K) (t : Tbl K V) (k : K) : Res (Bool × Nat × Entry K V × Tbl K V) :=
  lookup F t k >>= fun r =>
  match r.2.1.key with
  | .null =>
    (if r.2.2.fill * 3 > (r.2.2.table.length - 1) * 2 then
      resize r.2.2 (r.2.2.size * (if r.2.2.size > slowDown then 4 else 2)) >>= fun t => lookup F t k
    else .ok r) >>= fun r =>
    .ok (true, r.1, r.2.1, { r.2.2 with fill := r.2.2.fill + 1, size := r.2.2.size + 1 })
  | .dummy => .ok (true, r.1, r.2.1, { r.2.2 with size := r.2.2.size + 1 })
  | .live _ => .ok (false, r.1, r.2.1, r.2.2)

/-- `HashKeyStatus`, c/include/hash.h. -/
inductive Status where
  | absent | equal | same
  deriving DecidableEq

/-- The status of a slot for a key. -/
def status (F : Fns K) (s : Slot K) (k : K) : Status :=
  match s with
  | .live k' => if F.same k' k then .same else .equal
  | _ => .absent

/-- h_set, hash.c 363–387. -/
def set (F : Fns K) (t : Tbl K V) (k : K) (v : V) : Res (Status × Tbl K V) :=
  setExt F t k >>= fun r =>
  .ok (if r.1 then .absent else status F r.2.2.1.key k,
    { r.2.2.2 with table := r.2.2.2.table.set r.2.1 { r.2.2.1 with key := .live k, value := some v } })

/-- h_set_safe, hash.c 389–400. -/
def setSafe (F : Fns K) (t : Tbl K V) (k : K) (v : V) : Res (Bool × Tbl K V) :=
  setExt F t k >>= fun r =>
  if r.1 then .ok (true, { r.2.2.2 with table := r.2.2.2.table.set r.2.1 { r.2.2.1 with key := .live k, value := some v } })
  else .ok (false, r.2.2.2)

/-- h_has_key, hash.c 402–412. -/
def hasKey (F : Fns K) (t : Tbl K V) (k : K) : Res (Status × Tbl K V) :=
  lookup F t k >>= fun r => .ok (status F r.2.1.key k, r.2.2)

/-- h_clear, hash.c 212–233. -/
def clear (t : Tbl K V) : Tbl K V := ⟨0, 0, List.replicate t.table.length .zero⟩

/-- The loop of h_each, hash.c 469–474 (and of h_clone 489–496): the active entries in table
order; `i` counts down from `size`. -/
def eachLoop : (i : Nat) → List (Entry K V) → Res (List (K × Option V))
  | 0, _ => .ok []
  | _ + 1, [] => .ub
  | i + 1, e :: es =>
    match e.key with
    | .live k => eachLoop i es >>= fun l => .ok ((k, e.value) :: l)
    | _ => eachLoop (i + 1) es

/-- h_each, hash.c 464–475. -/
def each (t : Tbl K V) : Res (List (K × Option V)) := eachLoop t.size t.table

/-- The observation a status stands for. -/
def Status.obs : Status → Spec.HObs V
  | .absent => .absent | .equal => .equal | .same => .same

/-- One call of the interface. -/
def doOp (F : Fns K) (t : Tbl K V) : Spec.HOp K V → Res (Spec.HObs V × Tbl K V)
  | .set k v => set F t k v >>= fun r => .ok (r.1.obs, r.2)
  | .setSafe k v => setSafe F t k v >>= fun r => .ok (.bool r.1, r.2)
  | .get k => get F t k >>= fun r => .ok (.val r.1, r.2)
  | .has k => hasKey F t k >>= fun r => .ok (r.1.obs, r.2)
  | .del k => rem F t k >>= fun r => .ok (.bool r.2.1, r.2.2)
  | .rem k => rem F t k >>= fun r => .ok (.val r.1, r.2.2)
  | .count => .ok (.num t.size, t)
  | .clear => .ok (.unit, clear t)

/-- A sequence of calls. -/
def doOps (F : Fns K) (t : Tbl K V) : List (Spec.HOp K V) → Res (List (Spec.HObs V) × Tbl K V)
  | [] => .ok ([], t)
  | op :: ops =>
    doOp F t op >>= fun r => doOps F r.2 ops >>= fun r' => .ok (r.1 :: r'.1, r'.2)

end Ferret.Hash
