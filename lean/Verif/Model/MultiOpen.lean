import Verif.Model.FieldInfos
import Verif.Model.MultiTermEnum
import Verif.Model.Norms

/-!
A reader of the indexes of several readers: mr_open, index.c 5039–5095, ir_get_field_num 3952–3959.

Simplifications: of a reader given to mr_open there are its fields, and in `Verif.Model.MultiTermEnum` and `Verif.Model.Norms` its terms and norms as a segment
reader, so that each index has one segment; readers that are themselves readers of several segments are not modelled.
-/

namespace Ferret.MOpen
open Ferret Ferret.Fis
open Ferret.Spec (Name)

/-- One turn of the loop that merges fields, index.c 5051–5056: the table, and need_field_map. -/
def mergeField (x : FIS × Bool) (fi : FI) : Res (FIS × Bool) :=
  getOrAdd x.1 fi.name >>= fun t =>
  match getField t fi.name with
  | none => .ub
  | some g => .ok ({ t with fields := t.fields.set g.number { g with bits := g.bits ||| fi.bits } }, x.2 || fi.number != g.number)

/-- The loop over the fields of a reader, index.c 5050–5057. -/
def mergeFields : FIS × Bool → List FI → Res (FIS × Bool)
  | x, [] => .ok x
  | x, f :: fs => mergeField x f >>= fun x => mergeFields x fs

/-- The loop over the readers, index.c 5047–5058. -/
def mergeAll : FIS × Bool → List FIS → Res (FIS × Bool)
  | x, [] => .ok x
  | x, s :: ss => mergeFields x s.fields >>= fun x => mergeAll x ss

/-- field_num_map, index.c 5064–5077. -/
def fieldMap (fis : FIS) (subs : List FIS) : List (List Int) := subs.map fun s => fis.fields.map fun fi => getFieldNum s fi.name

/-- mr_open, index.c 5039–5095: the fields of the reader, and the map. -/
def mrOpen (subs : List FIS) : Res (FIS × Option (List (List Int))) :=
  fisNew 0 0 0 >>= fun fis => mergeAll (fis, false) subs >>= fun x => .ok (x.1, if x.2 then some (fieldMap x.1 subs) else none)

/-- ir_get_field_num, index.c 3952–3959. -/
def irFieldNum (fis : FIS) (name : Name) : Res Int := if getFieldNum fis name < 0 then .raise .arg else .ok (getFieldNum fis name)

end Ferret.MOpen
