import Verif.Spec.Bytes

/-!
What a history of calls on a writer leaves in the index: what C28, C29 and C50 are stated with.
-/

namespace Ferret.Spec

/-- What matters of documents: whether one has a term in a field, which fields it has, and whether one of them has norms. -/
structure Docs (α : Type) where
  has : List Byte → List Byte → α → Bool
  fields : α → List (List Byte)
  normed : α → Bool

/-- Documents have terms in their fields only. -/
def Docs.Good {α : Type} (D : Docs α) : Prop := ∀ f t d, D.has f t d = true → f ∈ D.fields d

/-- The settings of a writer, index.h 31–42. -/
structure Config where
  mergeFactor : Int
  maxBufferedDocs : Int
  maxMergeDocs : Int
  compound : Bool

/-- Calls on a writer. `full`: the memory pool is above max_buffer_memory after the document was added, whatever that
means for the document. `openFails`: add_doc, when the files for stored fields cannot be opened. -/
inductive Op (α : Type) where
  | add (d : α) (full : Bool)
  | openFails (d : α)
  | delete (field term : List Byte)
  | deleteAll (field : List Byte) (terms : List (List Byte))
  | commit
  | optimize
  | set (c : Config)
  | reopen (c : Config)

/-- The documents after a history that began with `docs`: those added, without those deleted later, in order. -/
def contents {α : Type} (D : Docs α) : List α → List (Op α) → List α
  | docs, [] => docs
  | docs, .add d _ :: ops => contents D (docs ++ [d]) ops
  | docs, .delete f t :: ops => contents D (docs.filter fun d => !D.has f t d) ops
  | docs, .deleteAll f ts :: ops => contents D (docs.filter fun d => !ts.any fun t => D.has f t d) ops
  | docs, _ :: ops => contents D docs ops

/-- How many documents a history adds. -/
def adds {α : Type} : List (Op α) → Nat
  | [] => 0
  | .add _ _ :: ops => adds ops + 1
  | _ :: ops => adds ops

/-- The largest `int`. -/
def intMax : Int := 2147483647

/-- The settings with which everything ends: max_merge_docs is an `int`. -/
def GoodCfg (K : Nat) (c : Config) : Prop :=
  2 ≤ c.mergeFactor ∧ c.mergeFactor ≤ K ∧ 1 ≤ c.maxBufferedDocs ∧ c.maxMergeDocs ≤ intMax

/-- Histories in which the settings are good and max_buffered_docs is not raised while the writer is open (`b` is what it is). No
opening of files fails. -/
def GoodOps {α : Type} (K : Nat) : Int → List (Op α) → Prop
  | _, [] => True
  | b, .set c :: ops => GoodCfg K c ∧ c.maxBufferedDocs ≤ b ∧ GoodOps K c.maxBufferedDocs ops
  | _, .reopen c :: ops => GoodCfg K c ∧ GoodOps K c.maxBufferedDocs ops
  | _, .openFails _ :: _ => False
  | b, _ :: ops => GoodOps K b ops

/-- The calls that add and delete, without what depends on memory. -/
def changes {α : Type} : List (Op α) → List (Op α)
  | [] => []
  | .add d _ :: ops => .add d false :: changes ops
  | .delete f t :: ops => .delete f t :: changes ops
  | .deleteAll f ts :: ops => .deleteAll f ts :: changes ops
  | _ :: ops => changes ops

end Ferret.Spec
