import Verif.Model.Basic

/-!
Model of the bounded priority queue, c/src/priorityqueue.c.

Simplifications: `heap` lists the elements in slots 1..size of the C array (slot `i` is
`heap[i-1]` here, the C field `size` is `heap.length`); slots above `size` are never
meaningful in C (NULL after a pop), so reading one is `.ub`. `memCapa` is the number of
allocated slots; writing a slot outside it is `.ub`. The C `int` fields do not overflow.
-/

namespace Ferret.PQ

variable {α : Type}

/-- `struct FrtPriorityQueue`, c/include/priorityqueue.h:16-24 (the comparison function is a
parameter of the operations). -/
structure PQ (α : Type) where
  heap : List α
  capa : Nat
  memCapa : Nat

/-- `pq_new`, c/src/priorityqueue.c:7-19 (START_CAPA = 127, line 5). -/
def new (capa : Nat) : PQ α :=
  { heap := [], capa := capa, memCapa := (if 127 > capa then capa else 127) + 1 }

/-- Read slot `i` (1-based). -/
def slot (h : List α) (i : Nat) : Res α :=
  match i with
  | 0 => .ub
  | k + 1 => Res.ofOption h[k]?

/-- Write slot `i` (1-based, existing). -/
def put (h : List α) (i : Nat) (a : α) : List α := h.set (i - 1) a

/-- The loop of `pq_up`, c/src/priorityqueue.c:69-74; `i` is the hole, `j = i >> 1`. The
fuel bounds the number of iterations (`i` halves each time). -/
def upLoop (lt : α → α → Bool) (node : α) : Nat → List α → Nat → Res (List α)
  | 0, _, _ => .ub
  | fuel + 1, h, i =>
    let j := i / 2
    if j > 0 then
      slot h j >>= fun p =>
        if lt node p then upLoop lt node fuel (put h i p) j
        else .ok (put h i node)
    else .ok (put h i node)

/-- `pq_up`, c/src/priorityqueue.c:60-75. -/
def up (lt : α → α → Bool) (h : List α) : Res (List α) :=
  slot h h.length >>= fun node => upLoop lt node (h.length + 1) h h.length

/-- The child selection `j = i << 1; k = j + 1; if (k <= size && less_than(heap[k],
heap[j])) j = k;`, c/src/priorityqueue.c:80-88 and 93-97. -/
def childOf (lt : α → α → Bool) (h : List α) (i : Nat) : Res Nat :=
  if 2 * i + 1 ≤ h.length then
    slot h (2 * i + 1) >>= fun x => slot h (2 * i) >>= fun y =>
      .ok (if lt x y then 2 * i + 1 else 2 * i)
  else .ok (2 * i)

/-- The loop of `pq_down`, c/src/priorityqueue.c:90-99, with hole `i`. -/
def downLoop (lt : α → α → Bool) (node : α) : Nat → List α → Nat → Res (List α)
  | 0, _, _ => .ub
  | fuel + 1, h, i =>
    childOf lt h i >>= fun j =>
      if j ≤ h.length then
        slot h j >>= fun c =>
          if lt c node then downLoop lt node fuel (put h i c) j
          else .ok (put h i node)
      else .ok (put h i node)

/-- `pq_down`, c/src/priorityqueue.c:77-100. On an empty queue the C code copies the
(allocated, NULL) slot 1 onto itself. -/
def down (lt : α → α → Bool) (h : List α) : Res (List α) :=
  match h with
  | [] => .ok []
  | node :: _ => downLoop lt node (h.length + 1) h 1

/-- `pq_push`, c/src/priorityqueue.c:102-111. -/
def push (lt : α → α → Bool) (q : PQ α) (e : α) : Res (PQ α) :=
  let size := q.heap.length + 1
  let mem := if size ≥ q.memCapa then q.memCapa * 2 else q.memCapa
  if size ≥ mem then .ub else
  up lt (q.heap ++ [e]) >>= fun h => .ok { q with heap := h, memCapa := mem }

/-- `PriorityQueueInsertEnum`, c/include/priorityqueue.h. -/
inductive Ins where
  | added | inserted | dropped
  deriving DecidableEq, Repr

/-- `pq_insert`, c/src/priorityqueue.c:113-130. The third component is the element handed to
`free_elem`, if any. -/
def insert (lt : α → α → Bool) (q : PQ α) (e : α) : Res (PQ α × Ins × Option α) :=
  if q.heap.length < q.capa then
    push lt q e >>= fun q' => .ok (q', .added, none)
  else
    match q.heap with
    | [] => .ok (q, .dropped, some e)
    | t :: rest =>
      if lt t e then
        down lt (e :: rest) >>= fun h => .ok ({ q with heap := h }, .inserted, some t)
      else .ok (q, .dropped, some e)

/-- `pq_top`, c/src/priorityqueue.c:132-135 (`none` = NULL). -/
def top (q : PQ α) : Option α := q.heap.head?

/-- `pq_pop`, c/src/priorityqueue.c:137-148 (`none` = NULL): the last element moves to the
top, the size shrinks, the heap is sifted down. -/
def pop (lt : α → α → Bool) (q : PQ α) : Res (Option α × PQ α) :=
  match q.heap with
  | [] => .ok (none, q)
  | t :: rest =>
    let h := (put (t :: rest) 1 ((t :: rest).getLast (by simp))).dropLast
    down lt h >>= fun h' => .ok (some t, { q with heap := h' })

end Ferret.PQ
