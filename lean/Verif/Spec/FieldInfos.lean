import Verif.Spec.Dir

/-! The options of a field and what they mean. -/

namespace Ferret.Spec

inductive StoreOpt | no | yes | compress
  deriving DecidableEq
inductive IndexOpt | no | untokenized | yes | untokenizedOmitNorms | yesOmitNorms
  deriving DecidableEq
inductive TvOpt | no | yes | positions | offsets | positionsOffsets
  deriving DecidableEq

/-- The numbers of the enumerations, c/include/index.h 73–96. -/
def StoreOpt.num : StoreOpt → Nat | .no => 0 | .yes => 1 | .compress => 2
def IndexOpt.num : IndexOpt → Nat | .no => 0 | .untokenized => 1 | .yes => 3 | .untokenizedOmitNorms => 5 | .yesOmitNorms => 7
def TvOpt.num : TvOpt → Nat | .no => 0 | .yes => 1 | .positions => 3 | .offsets => 5 | .positionsOffsets => 7

/-- The options that can be asked for: no term vectors of a field that is not indexed. -/
def allowed (i : IndexOpt) (v : TvOpt) : Prop := i = .no → v = .no

instance (i : IndexOpt) (v : TvOpt) : Decidable (allowed i v) := by unfold allowed; infer_instance

/-- A field as its user describes it; the boost as the 32 bits of the float. -/
structure FieldDesc where
  name : Name
  store : StoreOpt
  index : IndexOpt
  tv : TvOpt
  boost : Nat

/-- What a user does to a table of fields: add one, or use one that may not be there yet. -/
inductive FieldOp where
  | add (f : FieldDesc)
  | use (name : Name)

/-- The table as its user sees it: the fields in the order added; `none` when the call is refused.
A field used without being added gets the defaults of the table and boost 1. -/
def fieldOp (ds : StoreOpt) (di : IndexOpt) (dv : TvOpt) (l : List FieldDesc) : FieldOp → Option (List FieldDesc)
  | .add f => if l.any (·.name == f.name) ∨ ¬ allowed f.index f.tv then none else some (l ++ [f])
  | .use n => if l.any (·.name == n) then some l else some (l ++ [⟨n, ds, di, dv, 0x3F800000⟩])

def fieldOps (ds : StoreOpt) (di : IndexOpt) (dv : TvOpt) : List FieldDesc → List FieldOp → Option (List FieldDesc)
  | l, [] => some l
  | l, op :: ops => (fieldOp ds di dv l op).bind fun l => fieldOps ds di dv l ops

end Ferret.Spec
