import Verif.Spec.Dir

/-!
What names and calls have to be for a store on disk and a store in memory to be the same (C90).
-/

namespace Ferret.Spec
open Ferret

/-- The extensions of index files: frq prx fdx fdt tfx tix tis del gen cfs. -/
def knownExts : List Name :=
  [[102, 114, 113], [112, 114, 120], [102, 100, 120], [102, 100, 116], [116, 102, 120], [116, 105, 120], [116, 105, 115],
   [100, 101, 108], [103, 101, 110], [99, 102, 115]]

/-- "segments" -/
def segmentsWord : Name := [115, 101, 103, 109, 101, 110, 116, 115]

/-- The name of an index file: with a known extension, or one that is f or s and a digit; or it begins with "segments". -/
def IndexName (n : Name) : Prop :=
  (∃ stem ext, n = stem ++ 46 :: ext ∧ (46 : Byte) ∉ ext ∧
    (ext ∈ knownExts ∨ ∃ c d r, ext = c :: d :: r ∧ (c = 102 ∨ c = 115) ∧ 48 ≤ d ∧ d ≤ 57)) ∨
  ((46 : Byte) ∉ n ∧ segmentsWord <+: n)

/-- The name of a lock of an index: "ferret-….lck". -/
def LockName (n : Name) : Prop := ∃ w, n = lockPrefix ++ w ++ lckExt

/-- A name that both stores treat alike, in the directory `dir`: that of an index file or a lock, without slashes, not
hidden, in ASCII at its beginning, and so short that the path fits in 1023 bytes. -/
structure PlainName (dir : Name) (n : Name) : Prop where
  kind : IndexName n ∨ LockName n
  slash : (47 : Byte) ∉ n
  first : n.head?.any (fun b => 47 < b.toNat && b.toNat < 128) = true
  fits : dir.length + 1 + n.length ≤ 1023

/-- Files are touched only when they are not there, and the length is asked only of files that are. -/
def callOk (good : Name → Prop) (s : DState) : DOp → Prop
  | .touch n => good n ∧ lookupName s.names n = none
  | .length n => good n ∧ (lookupName s.names n).isSome
  | .exist n | .remove n | .openOut n | .openIn n => good n
  | .rename a b => good a ∧ good b
  | _ => True

/-- All calls of a history are so. -/
def callsOk (good : Name → Prop) (s : DState) : List DOp → Prop
  | [] => True
  | op :: ops => callOk good s op ∧ ∀ o s', dstep s op = some (o, s') → callsOk good s' ops

end Ferret.Spec
