import Verif.Model.Hash
import Verif.Spec.HashSet

/-!
Model of the ordered hash set, c/src/hashset.c: a doubly linked list of entries together with a
hash table from elements to entries.

The entries live in a heap: a list of cells, `none` once freed, addressed by position. Following
a NULL pointer or using a freed cell is undefined. Freeing elements is not represented.
-/

namespace Ferret.HashSet
open Ferret.Hash (Fns Tbl Status)

variable {K : Type}

/-- `HashSetEntry`, c/include/hashset.h. -/
structure Node (K : Type) where
  elem : K
  prev : Option Nat
  next : Option Nat

/-- `HashSet`, c/include/hashset.h, with the memory of its entries. -/
structure HS (K : Type) where
  heap : List (Option (Node K))
  first : Option Nat
  last : Option Nat
  size : Nat
  ht : Tbl K Nat

/-- hs_alloc and hs_new, hashset.c 11–39. -/
def new : HS K := ⟨[], none, none, 0, Hash.new⟩

/-- `p->…` for a pointer into the heap. -/
def deref (heap : List (Option (Node K))) : Option Nat → Res (Nat × Node K)
  | none => .ub
  | some p => match heap[p]? with
    | some (some n) => .ok (p, n)
    | _ => .ub

/-- `p->next = q`. -/
def setNext (heap : List (Option (Node K))) (p q : Option Nat) : Res (List (Option (Node K))) :=
  deref heap p >>= fun n => .ok (heap.set n.1 (some { n.2 with next := q }))

/-- `p->prev = q`. -/
def setPrev (heap : List (Option (Node K))) (p q : Option Nat) : Res (List (Option (Node K))) :=
  deref heap p >>= fun n => .ok (heap.set n.1 (some { n.2 with prev := q }))

/-- append, hashset.c 74–89. -/
def append (F : Fns K) (hs : HS K) (k : K) : Res (HS K) :=
  let id := hs.heap.length
  let heap := hs.heap ++ [some ⟨k, hs.last, none⟩]
  (match hs.first with
   | none => .ok (heap, some id)
   | some f => setNext heap hs.last (some id) >>= fun heap => .ok (heap, some f)) >>= fun hf =>
  Hash.set F hs.ht k id >>= fun r =>
  .ok { heap := hf.1, first := hf.2, last := some id, size := hs.size + 1, ht := r.2 }

/-- hs_add, hashset.c 91–113. -/
def add (F : Fns K) (hs : HS K) (k : K) : Res (Status × HS K) :=
  Hash.hasKey F hs.ht k >>= fun r =>
  match r.1 with
  | .absent => append F { hs with ht := r.2 } k >>= fun hs => .ok (.absent, hs)
  | s => .ok (s, { hs with ht := r.2 })

/-- hs_add_safe, hashset.c 115–130. -/
def addSafe (F : Fns K) (hs : HS K) (k : K) : Res (Bool × HS K) :=
  Hash.hasKey F hs.ht k >>= fun r =>
  match r.1 with
  | .equal => .ok (false, { hs with ht := r.2 })
  | .same => .ok (true, { hs with ht := r.2 })
  | .absent => append F { hs with ht := r.2 } k >>= fun hs => .ok (true, hs)

/-- The unlinking in hs_rem, hashset.c 138–152; `p` is the entry. -/
def unlink (hs : HS K) (p : Nat) : Res (HS K) :=
  if hs.first = hs.last then .ok { hs with first := none, last := none }
  else deref hs.heap (some p) >>= fun e =>
    if hs.first = some p then
      setPrev hs.heap e.2.next none >>= fun heap => .ok { hs with heap := heap, first := e.2.next }
    else if hs.last = some p then
      setNext hs.heap e.2.prev none >>= fun heap => .ok { hs with heap := heap, last := e.2.prev }
    else
      setNext hs.heap e.2.prev e.2.next >>= fun heap =>
      deref heap (some p) >>= fun e =>
      setPrev heap e.2.next e.2.prev >>= fun heap => .ok { hs with heap := heap }

/-- hs_rem, hashset.c 132–158. `size` below zero is undefined here. -/
def rem (F : Fns K) (hs : HS K) (k : K) : Res (Option K × HS K) :=
  Hash.get F hs.ht k >>= fun r =>
  match r.1 with
  | none => .ok (none, { hs with ht := r.2 })
  | some p =>
    unlink { hs with ht := r.2 } p >>= fun hs =>
    deref hs.heap (some p) >>= fun e =>
    Hash.rem F hs.ht e.2.elem >>= fun r =>
    if hs.size = 0 then .ub
    else .ok (some e.2.elem, { hs with heap := hs.heap.set p none, size := hs.size - 1, ht := r.2.2 })

/-- hs_exists, hashset.c 170–173. -/
def exist (F : Fns K) (hs : HS K) (k : K) : Res (Status × HS K) :=
  Hash.hasKey F hs.ht k >>= fun r => .ok (r.1, { hs with ht := r.2 })

/-- hs_orig, hashset.c 188–192. -/
def orig (F : Fns K) (hs : HS K) (k : K) : Res (Option K × HS K) :=
  Hash.get F hs.ht k >>= fun r =>
  match r.1 with
  | none => .ok (none, { hs with ht := r.2 })
  | some p => deref hs.heap (some p) >>= fun e => .ok (some e.2.elem, { hs with ht := r.2 })

/-- `for (e = hs->first; e; e = e->next)`, the way callers enumerate the set; more rounds than the
heap has cells is undefined. -/
def walk (heap : List (Option (Node K))) : (fuel : Nat) → Option Nat → Res (List K)
  | _, none => .ok []
  | 0, some _ => .ub
  | fuel + 1, some p =>
    deref heap (some p) >>= fun e => walk heap fuel e.2.next >>= fun l => .ok (e.2.elem :: l)

def elems (hs : HS K) : Res (List K) := walk hs.heap hs.heap.length hs.first

/-- The loop of clear, hashset.c 43–49: free each entry in turn. -/
def freeAll (heap : List (Option (Node K))) : (fuel : Nat) → Option Nat → Res (List (Option (Node K)))
  | _, none => .ok heap
  | 0, some _ => .ub
  | fuel + 1, some p => deref heap (some p) >>= fun e => freeAll (heap.set p none) fuel e.2.next

/-- hs_clear, hashset.c 54–58. -/
def clear (hs : HS K) : Res (HS K) :=
  freeAll hs.heap hs.heap.length hs.first >>= fun heap =>
  .ok { heap := heap, first := none, last := none, size := 0, ht := Hash.clear hs.ht }

/-- The loop of hs_merge, hashset.c 177–180; it adds the elements in the order of the other set. -/
def addAll (F : Fns K) (hs : HS K) : List K → Res (HS K)
  | [] => .ok hs
  | k :: ks => add F hs k >>= fun r => addAll F r.2 ks

/-- hs_merge, hashset.c 175–186. -/
def merge (F : Fns K) (hs other : HS K) : Res (HS K) :=
  elems other >>= fun l => addAll F hs l

/-- The observation a status stands for. -/
def sobs : Status → Spec.SObs K
  | .absent => .absent | .equal => .equal | .same => .same

/-- One call of the interface; `merge` builds the other set by adding its elements to a new set. -/
def doOp (F : Fns K) (hs : HS K) : Spec.SOp K → Res (Spec.SObs K × HS K)
  | .add k => add F hs k >>= fun r => .ok (sobs r.1, r.2)
  | .addSafe k => addSafe F hs k >>= fun r => .ok (.bool r.1, r.2)
  | .rem k => rem F hs k >>= fun r => .ok (.elem r.1, r.2)
  | .del k => rem F hs k >>= fun r => .ok (.bool r.1.isSome, r.2)
  | .exist k => exist F hs k >>= fun r => .ok (sobs r.1, r.2)
  | .orig k => orig F hs k >>= fun r => .ok (.elem r.1, r.2)
  | .count => .ok (.num hs.size, hs)
  | .elems => elems hs >>= fun l => .ok (.list l, hs)
  | .clear => clear hs >>= fun hs => .ok (.unit, hs)
  | .merge other => addAll F new other >>= fun o => merge F hs o >>= fun hs => .ok (.unit, hs)

/-- A sequence of calls. -/
def doOps (F : Fns K) (hs : HS K) : List (Spec.SOp K) → Res (List (Spec.SObs K) × HS K)
  | [] => .ok ([], hs)
  | op :: ops =>
    doOp F hs op >>= fun r => doOps F r.2 ops >>= fun r' => .ok (r.1 :: r'.1, r'.2)

end Ferret.HashSet
