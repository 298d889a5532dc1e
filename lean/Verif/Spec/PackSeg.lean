import Verif.Spec.Disk
import Verif.Spec.Stream
import Verif.Model.StreamRun

/-! What it means that two open streams cannot be told apart by reading them. -/

namespace Ferret.Spec
open Ferret Ferret.Store

/-- Both streams read these bytes: every sequence of reads, seeks and copies of streams that does
not ask for a block beyond the end gives on both what it should give on the bytes. -/
def ReadSame (content : List Byte) (s t : InS) : Prop :=
  ∀ cmds obs, inCmds content [0] cmds = some obs → doIns [s] cmds = .ok obs ∧ doIns [t] cmds = .ok obs

/-- The size of some files together. -/
def sizeOf (d : Disk) (names : List Name) : Nat := (names.map fun n => ((d.get n).getD []).length).sum

end Ferret.Spec
