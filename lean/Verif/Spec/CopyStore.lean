import Verif.Spec.Snapshot

/-! What a copy of a directory is (C98). -/

namespace Ferret.Spec
open Ferret

/-- `t` has the files of `s` whose names are to be kept, with the same contents, and no others, and no streams are open. -/
structure CopyOf (keep : Name → Prop) (s t : DState) : Prop where
  once : (t.names.map (·.1)).Nodup
  kept : ∀ n, keep n → fileOf t n = fileOf s n
  left : ∀ n, ¬ keep n → fileOf t n = none
  outs : ∀ o ∈ t.outs, o = none
  ins : t.ins = []

/-- The directory after a number of further streams was opened for reading and closed again. -/
def readBy (s : DState) (k : Nat) : DState := { s with ins := s.ins ++ List.replicate k none }

end Ferret.Spec
