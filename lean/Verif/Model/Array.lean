import Verif.Model.Basic
import Verif.Spec.Array

/-!
Model of the growable array, c/src/array.c and c/include/array.h: all functions but ary_destroy_i.

The memory of the array is the list of its cells, of which there are as many as were allocated;
touching any other cell is undefined. The elements are pointers, `none` for NULL (the element size
is that of a pointer, 8 bytes; the arrays of another element size use only ary_resize_i). Cells that
realloc adds hold an arbitrary value `junk` until written. `int` arithmetic that overflows is
undefined.
-/

namespace Ferret.Arr
open Ferret Ferret.Spec

variable {V : Type}

/-- An array: ary_sz and ary_capa, array.h 18–19, and the cells allocated. -/
structure Ary (V : Type) where
  sz : Nat
  capa : Nat
  cells : List (Option V)

/-- `ary[i]` for reading. -/
def load (cells : List (Option V)) (i : Nat) : Res (Option V) := Res.ofOption cells[i]?

/-- `ary[i] = v`. -/
def store (cells : List (Option V)) (i : Nat) (v : Option V) : Res (List (Option V)) :=
  if i < cells.length then .ok (cells.set i v) else .ub

/-- `memmove(ary + dst, ary + src, n * sizeof(void *))`. -/
def move (cells : List (Option V)) (dst src n : Nat) : Res (List (Option V)) :=
  if src + n ≤ cells.length ∧ dst + n ≤ cells.length then
    .ok (cells.take dst ++ (cells.drop src).take n ++ cells.drop (dst + n))
  else .ub

/-- The number of cells such that their size in bytes is an `int`. -/
def maxCapa : Nat := 2 ^ 28

/-- ary_new_i, array.c 8–19, through ary_new and ary_new_capa, array.h 27–28. -/
def new (initCapa : Int) : Res (Ary V) :=
  let capa := if initCapa ≤ 0 then 8 else initCapa.toNat
  if capa < maxCapa then .ok ⟨0, capa, List.replicate capa none⟩ else .ub

/-- The loop of ary_resize_i, array.c 28–30. `fuel` bounds the doublings of an `int`. -/
def growCapa : Nat → Nat → Nat → Res Nat
  | 0, _, _ => .ub
  | fuel + 1, size, capa =>
    if size ≥ capa then
      if capa * 2 < maxCapa then growCapa fuel size (capa * 2) else .ub
    else .ok capa

/-- ary_resize_i, array.c 21–41. -/
def resize (junk : Option V) (a : Ary V) (size : Nat) : Res (Ary V) :=
  let size := size + 1
  if size > a.sz then
    (if size ≥ a.capa then
      growCapa 32 size a.capa >>= fun capa =>
      let cells := a.cells ++ List.replicate (capa - a.capa) junk
      .ok { a with capa := capa, cells := cells.take a.sz ++ List.replicate (capa - a.sz) none }
     else .ok a) >>= fun a =>
    .ok { a with sz := size }
  else .ok a

/-- ary_set_i, array.c 43–53. -/
def setI (junk : Option V) (a : Ary V) (index : Int) (v : Option V) : Res (Ary V) :=
  let index := if index < 0 then index + a.sz else index
  if index < 0 then .raise .index
  else
    resize junk a index.toNat >>= fun a =>
    store a.cells index.toNat v >>= fun c =>
    .ok { a with cells := c }

/-- ary_get_i, array.c 55–66. -/
def getI (a : Ary V) (index : Int) : Res (Option V) :=
  let index := if index < 0 then index + a.sz else index
  if index ≥ 0 ∧ index < a.sz then load a.cells index.toNat else .ok none

/-- ary_push_i, array.c 68–73. -/
def push (junk : Option V) (a : Ary V) (v : Option V) : Res (Ary V) :=
  let size := a.sz
  resize junk a size >>= fun a =>
  store a.cells size v >>= fun c =>
  .ok { a with cells := c }

/-- ary_pop_i, array.c 75–80. -/
def pop (a : Ary V) : Res (Ary V × Option V) :=
  match a.sz with
  | 0 => .ub
  | n + 1 =>
    load a.cells n >>= fun val =>
    store a.cells n none >>= fun c =>
    .ok ({ a with sz := n, cells := c }, val)

/-- ary_unshift_i, array.c 82–88. -/
def unshift (junk : Option V) (a : Ary V) (v : Option V) : Res (Ary V) :=
  let size := a.sz
  resize junk a size >>= fun a =>
  move a.cells 1 0 size >>= fun c =>
  store c 0 v >>= fun c =>
  .ok { a with cells := c }

/-- ary_shift_i, array.c 90–97. Of an empty array it moves (size_t)-8 bytes. -/
def shift (a : Ary V) : Res (Ary V × Option V) :=
  load a.cells 0 >>= fun val =>
  match a.sz with
  | 0 => .ub
  | size + 1 =>
    move a.cells 0 1 size >>= fun c =>
    store c size none >>= fun c =>
    .ok ({ a with sz := size, cells := c }, val)

/-- ary_remove_i, array.c 99–111. -/
def remove (a : Ary V) (index : Int) : Res (Ary V × Option V) :=
  if index ≥ 0 ∧ index < a.sz then
    load a.cells index.toNat >>= fun val =>
    move a.cells index.toNat (index.toNat + 1) (a.sz - index.toNat + 1) >>= fun c =>
    .ok ({ a with sz := a.sz - 1, cells := c }, val)
  else .ok (a, none)

/-- One call; ary_delete_i, array.c 113–116, hands the removed value to the function given. -/
def step (junk : Option V) (a : Ary V) : ArrOp V → Res (Ary V × ArrOut V)
  | .set i v => match setI junk a i v with
    | .ok a => .ok (a, .done)
    | .raise _ => .ok (a, .indexError)
    | .ub => .ub
  | .get i => getI a i >>= fun v => .ok (a, .value v)
  | .push v => push junk a v >>= fun a => .ok (a, .done)
  | .pop => pop a >>= fun r => .ok (r.1, .value r.2)
  | .unshift v => unshift junk a v >>= fun a => .ok (a, .done)
  | .shift => shift a >>= fun r => .ok (r.1, .value r.2)
  | .remove i => remove a i >>= fun r => .ok (r.1, .value r.2)
  | .delete i => remove a i >>= fun r => .ok (r.1, .freed r.2)

/-- A sequence of calls. -/
def run (junk : Option V) (a : Ary V) : List (ArrOp V) → Res (Ary V × List (ArrOut V))
  | [] => .ok (a, [])
  | op :: ops =>
    step junk a op >>= fun r =>
    run junk r.1 ops >>= fun q =>
    .ok (q.1, r.2 :: q.2)

end Ferret.Arr
