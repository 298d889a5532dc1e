import Verif.Spec.Dir

/-!
What norms are: a byte for every document and every field that has norms, 0 for others. A program sets them and reads those of a field, of all documents; what it sets is seen
by itself at once and by others when it is committed.
-/

namespace Ferret.Spec

/-- What a program does: `other` reads the norms of a field with a reader that is opened then; `into` reads into memory of the program. -/
inductive NOp where
  | set (doc field : Nat) (v : Byte)
  | norms (field : Nat)
  | into (field : Nat) (buf : List Byte)
  | commit
  | other (field : Nat)

/-- An index of `max` documents. -/
structure NState where
  max : Nat
  /-- Whether the document is in a segment that has norms for the field. -/
  has : Nat → Nat → Bool
  /-- As the program sees them. -/
  cur : Nat → Nat → Byte
  /-- As committed. -/
  saved : Nat → Nat → Byte

/-- The norms of a field, of all documents. -/
def NState.row (s : NState) (m : Nat → Nat → Byte) (f : Nat) : List Byte := (List.range s.max).map fun d => if s.has d f then m d f else 0

/-- What an operation gives, and the state after it. -/
def nstep (s : NState) : NOp → List Byte × NState
  | .set d f v => ([], { s with cur := fun d' f' => if d' = d ∧ f' = f then v else s.cur d' f' })
  | .norms f => (s.row s.cur f, s)
  | .into f _ => (s.row s.cur f, s)
  | .commit => ([], { s with saved := s.cur })
  | .other f => (s.row s.saved f, s)

def nrun (s : NState) : List NOp → List (List Byte)
  | [] => []
  | op :: ops => (nstep s op).1 :: nrun (nstep s op).2 ops

end Ferret.Spec
