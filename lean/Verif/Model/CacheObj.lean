import Verif.Model.Basic
import Verif.Spec.CacheObj

/-!
What filters keep about readers: the cache objects of c/src/index.c 170–211, with filt_get_bv and filt_destroy_i of
c/src/filter.c 12–39, ir_add_cache and the part of ir_close that frees the cache (index.c 4142–4183), and h_set, h_rem, h_clear of
c/src/hash.c as far as they free values. A filter's table has a cache object for each reader, a reader's table has the
same objects for each filter; freeing an object takes it out of both, also while one of the tables is being freed.
The tables are lists of active entries here (that a hash table is a map is C05; the order in which h_clear
meets the entries is that of the list). Addresses are numbers, and are used again after they were freed; a cache object's
address is not, so that using a freed one is seen. Reference counts of filters and readers are not modelled:
`delF` and `delR` are the last ones.
-/

namespace Ferret.CacheObj
open Ferret Ferret.Spec

variable {V : Type}

/-- struct CacheObject, include/index.h 52–59: the tables are those of the filter and of the reader. -/
structure Co (V : Type) where
  f : Nat
  r : Nat
  obj : V

/-- Memory: the tables of filters (address of a reader and cache object), those of readers (NULL until one is needed), the
cache objects, and what was freed with them. -/
structure St (V : Type) where
  filt : Nat → Option (List (Nat × Nat)) := fun _ => none
  rdr : Nat → Option (Option (List (Nat × Nat))) := fun _ => none
  heap : Nat → Option (Co V) := fun _ => none
  next : Nat := 0
  freed : List V := []

/-- Assignment. -/
def put {α : Type} (g : Nat → α) (k : Nat) (a : α) : Nat → α := fun x => if x = k then a else g x

/-- h_rem, hash.c 275–294. -/
def hRem (t : List (Nat × Nat)) (k : Nat) : List (Nat × Nat) := t.filter fun x => decide (x.1 ≠ k)

/-- h_get, hash.c 254–258. -/
def hGet (t : List (Nat × Nat)) (k : Nat) : Option Nat := (t.find? fun x => decide (x.1 = k)).map (·.2)

/-- co_destroy, index.c 185–191. -/
def coDestroy (st : St V) (c : Nat) : Res (St V) :=
  match st.heap c with
  | none => .ub
  | some o =>
    match st.filt o.f, st.rdr o.r with
    | some t, some (some u) =>
      .ok { st with filt := put st.filt o.f (some (hRem t o.r)), rdr := put st.rdr o.r (some (some (hRem u o.f))), heap := put st.heap c none, freed := st.freed ++ [o.obj] }
    | _, _ => .ub

/-- h_set into a filter's table, hash.c 363–387: a value that was there is freed. -/
def hSetF (st : St V) (f k c : Nat) : Res (St V) :=
  match st.filt f with
  | none => .ub
  | some t =>
    (match hGet t k with
      | none => .ok st
      | some old => if old = c then .ok st else coDestroy st old) >>= fun st' =>
    match st'.filt f with
    | none => .ub
    | some t' => .ok { st' with filt := put st'.filt f (some (hRem t' k ++ [(k, c)])) }

/-- h_set into a reader's table, hash.c 363–387. -/
def hSetR (st : St V) (r k c : Nat) : Res (St V) :=
  match st.rdr r with
  | some (some u) =>
    (match hGet u k with
      | none => .ok st
      | some old => if old = c then .ok st else coDestroy st old) >>= fun st' =>
    match st'.rdr r with
    | some (some u') => .ok { st' with rdr := put st'.rdr r (some (some (hRem u' k ++ [(k, c)]))) }
    | _ => .ub
  | _ => .ub

/-- co_create, index.c 193–206. -/
def coCreate (st : St V) (f r : Nat) (v : V) : Res (St V) :=
  hSetF { st with next := st.next + 1 } f r st.next >>= fun st1 =>
  hSetR st1 r f st.next >>= fun st2 =>
  .ok { st2 with heap := put st2.heap st.next (some ⟨f, r, v⟩) }

/-- ir_add_cache, index.c 4178–4183, after the test of filter.c 30. -/
def addCache (st : St V) (r : Nat) : Res (St V) :=
  match st.rdr r with
  | none => .ub
  | some none => .ok { st with rdr := put st.rdr r (some (some [])) }
  | some (some _) => .ok st

/-- filt_get_bv, filter.c 24–39; `v` is what get_bv_i gives. -/
def getBv (st : St V) (f r : Nat) (v : V) : Res (St V × V) :=
  match st.filt f with
  | none => .ub
  | some t =>
    match hGet t r with
    | some c =>
      match st.heap c with
      | none => .ub
      | some o => .ok (st, o.obj)
    | none => addCache st r >>= fun st1 => coCreate st1 f r v >>= fun st2 => .ok (st2, v)

/-- The loop of h_clear, hash.c 219–226, over a filter's table: the entry is freed if it is still there, then emptied. -/
def clearF (f : Nat) : List (Nat × Nat) → St V → Res (St V)
  | [], st => .ok st
  | x :: xs, st =>
    match st.filt f with
    | none => .ub
    | some t =>
      (if x ∈ t then coDestroy st x.2 else .ok st) >>= fun st' =>
      match st'.filt f with
      | none => .ub
      | some t' => clearF f xs { st' with filt := put st'.filt f (some (hRem t' x.1)) }

/-- The same over a reader's table. -/
def clearR (r : Nat) : List (Nat × Nat) → St V → Res (St V)
  | [], st => .ok st
  | x :: xs, st =>
    match st.rdr r with
    | some (some u) =>
      (if x ∈ u then coDestroy st x.2 else .ok st) >>= fun st' =>
      match st'.rdr r with
      | some (some u') => clearR r xs { st' with rdr := put st'.rdr r (some (some (hRem u' x.1))) }
      | _ => .ub
    | _ => .ub

/-- filt_destroy_i, filter.c 12–16, with h_destroy, hash.c 235–252. -/
def delFilter (st : St V) (f : Nat) : Res (St V) :=
  match st.filt f with
  | none => .ub
  | some t => clearF f t st >>= fun st' => .ok { st' with filt := put st'.filt f none }

/-- ir_close, index.c 4154–4156, 4167. -/
def delReader (st : St V) (r : Nat) : Res (St V) :=
  match st.rdr r with
  | none => .ub
  | some none => .ok { st with rdr := put st.rdr r none }
  | some (some u) => clearR r u st >>= fun st' => .ok { st' with rdr := put st'.rdr r none }

/-- One operation: filt_create, filter.c 57–68 (co_hash_create, index.c 208–211); a reader being opened, with no cache; and those above. -/
def step (st : St V) : CacheOp V → Res (St V × Option V)
  | .newF f => .ok ({ st with filt := put st.filt f (some []) }, none)
  | .newR r => .ok ({ st with rdr := put st.rdr r (some none) }, none)
  | .get f r v => getBv st f r v >>= fun x => .ok (x.1, some x.2)
  | .delF f => delFilter st f >>= fun st' => .ok (st', none)
  | .delR r => delReader st r >>= fun st' => .ok (st', none)

/-- All operations and the answers. -/
def run (st : St V) : List (CacheOp V) → Res (St V × List (Option V))
  | [] => .ok (st, [])
  | op :: ops => step st op >>= fun x => run x.1 ops >>= fun y => .ok (y.1, x.2 :: y.2)

end Ferret.CacheObj
