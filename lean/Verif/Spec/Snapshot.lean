import Verif.Spec.Dir

/-! What a name stands for in a directory. -/

namespace Ferret.Spec

/-- The content of the file a name stands for now. -/
def fileOf (d : DState) (n : Name) : Option (List Byte) := (lookupName d.names n).bind fun i => d.files[i]?

end Ferret.Spec
