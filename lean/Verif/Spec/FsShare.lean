import Verif.Model.FsShare

/-!
What sharing stores should be (C90): opening a path gives the store that is open for it, or a new one; a store is open as long as
somebody has it.
-/

namespace Ferret.Spec
open Ferret

structure SharedStores where
  /-- the open stores: path, store, how many times it has been got and not given back -/
  opened : List (Name × Nat × Nat)
  /-- the next new store -/
  fresh : Nat

/-- What a call does; none when a store is given back that nobody has. -/
def shareStep (s : SharedStores) : FsShare.Ev → Option (List FsShare.Obs × SharedStores)
  | .openStore t p =>
    match s.opened.find? (fun e => e.1 == p) with
    | some e => some ([.got t e.2.1], { s with opened := s.opened.map fun x => if x.1 == p then (x.1, x.2.1, x.2.2 + 1) else x })
    | none => some ([.got t s.fresh], ⟨(p, s.fresh, 1) :: s.opened, s.fresh + 1⟩)
  | .closeStore t i =>
    match s.opened.find? (fun e => e.2.1 == i) with
    | some e => some ([.gave t i], ⟨if e.2.2 = 1 then s.opened.filter (fun x => !(x.2.1 == i))
        else s.opened.map (fun x => if x.2.1 == i then (x.1, x.2.1, x.2.2 - 1) else x), s.fresh⟩)
    | none => none
  | .step _ => none

def shareRun (s : SharedStores) : List FsShare.Ev → Option (List FsShare.Obs × SharedStores)
  | [] => some ([], s)
  | e :: es => (shareStep s e).bind fun r => (shareRun r.2 es).map fun r' => (r.1 ++ r'.1, r'.2)

def noStores : SharedStores := ⟨[], 0⟩

end Ferret.Spec
