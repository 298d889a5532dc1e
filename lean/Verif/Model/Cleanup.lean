import Verif.Model.Basic

/-!
What is registered to be freed at the end: register_for_cleanup and clean_up (c/src/global.c 327–363). The array is a list of slots that have been
written or not; the functions that free are given by what they register themselves while they run. Sizes are unbounded; one thread. That a function
called by clean_up calls clean_up is not modelled.
-/

namespace Ferret.Cleanup
open Ferret

/-- free_mes with free_mes_capa slots, and free_mes_size, global.c 333–335. -/
structure St where
  slots : List (Option Nat) := []
  size : Nat := 0
  deriving DecidableEq

/-- register_for_cleanup, global.c 337–351. -/
def register (st : St) (p : Nat) : Res St :=
  let slots := if st.slots.length = 0 then List.replicate 16 none else if st.slots.length ≤ st.size then st.slots ++ List.replicate st.slots.length none else st.slots
  if st.size < slots.length then .ok { slots := slots.set st.size (some p), size := st.size + 1 } else .ub

def registerAll (st : St) : List Nat → Res St
  | [] => .ok st
  | p :: ps => register st p >>= fun st => registerAll st ps

/-- The loop of clean_up, global.c 356–359, from `i` on, with what has been freed; `none` when it has not ended after `fuel` turns. -/
def loop (act : Nat → List Nat) : Nat → St → Nat → List Nat → Res (Option (List Nat))
  | 0, _, _, _ => .ok none
  | fuel + 1, st, i, log =>
    if i < st.size then
      match st.slots[i]? with
      | some (some p) => registerAll st (act p) >>= fun st => loop act fuel st (i + 1) (log ++ [p])
      | _ => .ub
    else .ok (some log)

/-- clean_up, global.c 353–363: what was freed, in order, and what is registered then. -/
def cleanUp (act : Nat → List Nat) (fuel : Nat) (st : St) : Res (Option (List Nat × St)) :=
  loop act fuel st 0 [] >>= fun o => .ok (o.map fun l => (l, {}))

end Ferret.Cleanup
