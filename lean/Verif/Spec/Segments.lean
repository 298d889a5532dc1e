import Verif.Spec.BitVector
/-! Specification vocabulary for readers over several segments: documents are numbered through, segment after segment. -/

namespace Ferret.Spec

/-- The segment that contains a document and its number there; `none` past the last document. -/
def whichSegment : List Nat → Nat → Option (Nat × Nat)
  | [], _ => none
  | s :: ss, d => if d < s then some (0, d) else (whichSegment ss (d - s)).map fun x => (x.1 + 1, x.2)

/-- What a client does with the deletions of a reader. `torn k`: the process dies during a commit and the index is
opened again; `reopen`: the reader is closed and opened again. -/
inductive DelOp where
  | delete (d : Int)
  | undeleteAll
  | commit
  | reopen
  | torn (k : Nat)
  | isDeleted (d : Nat)
  | numDocs
  | hasDeletions

inductive DelOut where
  | done
  | flag (b : Bool)
  | count (n : Int)
  deriving DecidableEq

/-- The deleted documents as the reader should see them, and as they are on disk. -/
structure DelSt where
  now : Nat → Bool
  saved : Nat → Bool

/-- * `delete` marks a document if it exists.
* `undeleteAll` marks none.
* `commit`, and closing, save the marks; dying during a commit loses what was not saved.
* `numDocs` is the number of documents not marked. -/
def DelSt.step (max : Nat) (s : DelSt) : DelOp → DelSt × DelOut
  | .delete d => ({ s with now := fun j => s.now j || (decide ((j : Int) = d) && decide (j < max)) }, .done)
  | .undeleteAll => ({ s with now := fun _ => false }, .done)
  | .commit => (⟨s.now, s.now⟩, .done)
  | .reopen => (⟨s.now, s.now⟩, .done)
  | .torn _ => (⟨s.saved, s.saved⟩, .done)
  | .isDeleted d => (s, .flag (s.now d))
  | .numDocs => (s, .count (max - numTrue s.now max))
  | .hasDeletions => (s, .flag ((List.range max).any s.now))

def DelSt.run (max : Nat) : DelSt → List DelOp → List DelOut
  | _, [] => []
  | s, op :: ops => (s.step max op).2 :: DelSt.run max (s.step max op).1 ops

end Ferret.Spec
