import Verif.Spec.Dir

/-!
A directory of the operating system and what happens to it, one byte or name at a time. A process
that stops leaves the effects of the events so far (the operating system goes on: no loss or
reordering of what was written).
-/

namespace Ferret.Spec
open Ferret

abbrev Disk := List (Name × List Byte)

def Disk.get (d : Disk) (n : Name) : Option (List Byte) := (d.find? (fun p => p.1 == n)).map (·.2)

def Disk.names (d : Disk) : List Name := d.map (·.1)

inductive DiskEv where
  /-- open for writing: created if absent, kept if present -/
  | create (n : Name)
  /-- one byte at a position -/
  | put (n : Name) (pos : Nat) (b : Byte)
  | del (n : Name)
  deriving DecidableEq

def DiskEv.name : DiskEv → Name
  | .create n => n
  | .put n _ _ => n
  | .del n => n

def Disk.apply (d : Disk) : DiskEv → Disk
  | .create n => if (d.get n).isSome then d else d ++ [(n, [])]
  | .put n pos b => d.map (fun p => if p.1 == n then (p.1, writeAt p.2 pos [b]) else p)
  | .del n => d.filter (fun p => !(p.1 == n))

def Disk.applyAll (d : Disk) (evs : List DiskEv) : Disk := evs.foldl Disk.apply d

/-- Writing a whole file from its beginning, over what is there. -/
def writeFrom (n : Name) : Nat → List Byte → List DiskEv
  | _, [] => []
  | pos, b :: bs => .put n pos b :: writeFrom n (pos + 1) bs

def writeFile (n : Name) (bs : List Byte) : List DiskEv := .create n :: writeFrom n 0 bs

end Ferret.Spec
