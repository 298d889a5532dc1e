import Verif.Model.Basic

/-!
Specification for an Index, the object that opens and closes readers and writers by itself: what a
history of calls through one Index, among what other processes do, may show. Contents are the live
documents in order.
-/

namespace Ferret.Spec

/-- A committed index: its documents by number, with whether each is deleted, and how many segments
it has. -/
structure Com (α : Type) where
  docs : List (α × Bool)
  segs : Nat

/-- The live documents of a list of documents, with their numbers, counted from `i`. -/
def numberedFrom {α} (i : Nat) : List (α × Bool) → List (Nat × α)
  | [] => []
  | (d, true) :: l => numberedFrom (i + 1) l
  | (d, false) :: l => (i, d) :: numberedFrom (i + 1) l

def numbered {α} (l : List (α × Bool)) : List (Nat × α) := numberedFrom 0 l

/-- The live documents. -/
def live {α} (l : List (α × Bool)) : List α := (numbered l).map (·.2)

/-- A way to rearrange a committed index, as merging does: no document is lost, the order is kept. -/
structure Tidy {α} (σ : Com α → Com α) : Prop where
  same : ∀ c, live (σ c).docs = live c.docs
  some_ : ∀ c, c.segs ≠ 0 → (σ c).segs ≠ 0

/-- What identifies documents: key fields, the first value of a field in a document, and whether a
document has a term in a field. -/
structure Key (α K V : Type) where
  fields : List K
  value : K → α → Option V
  has : K → V → α → Bool

/-- The document `x` has, for each key field that `d` has, the value of `d`, and `d` has some key
field. -/
def matchesKey {α K V} (k : Key α K V) (d x : α) : Bool :=
  let ks := k.fields.filter fun f => (k.value f d).isSome
  !ks.isEmpty && ks.all fun f => match k.value f d with | some v => k.has f v x | none => true

/-- The calls of a history. The functions `σ` say what merging does to the numbering. -/
inductive IndOp (α : Type) where
  /-- index_size, index_get_doc, searching, …: shows the live documents with their numbers -/
  | read (σ : Com α → Com α)
  /-- index_add_doc; `full`: the buffer of the writer is full then; `grab`: another process opens a
  writer while this call has let go of the lock -/
  | add (d : α) (full grab : Bool) (σ : Com α → Com α)
  /-- index_delete, after a read -/
  | delete (n : Nat) (σ : Com α → Com α)
  /-- index_delete_term; `known l`: the field of the term is known to a writer of the documents `l` -/
  | deleteTerm (p : α → Bool) (known : List α → Bool) (σ : Com α → Com α)
  /-- index_delete_query, for a query that finds the documents with `p` -/
  | deleteQuery (p : α → Bool) (σ : Com α → Com α)
  /-- index_optimize; `merges`: there is something to merge -/
  | optimize (merges : Bool) (σ : Com α → Com α)
  | flush (σ : Com α → Com α)
  /-- another process opens a writer -/
  | otherOpen
  /-- the writer of the other process commits -/
  | otherCommit (c : Com α)
  | otherClose

/-- What a call may show (`o`) and do, when the contents are `c` before and `c'` after it. -/
def Effect {α K V} (key : Option (Key α K V)) : IndOp α → Res (List (Nat × α)) → List α → List α → Prop
  | .read _, .ok o, c, c' => o.map (·.2) = c ∧ c' = c
  | .add d _ _ _, .ok _, c, c' => match key with
    | none => c' = c ++ [d]
    | some k => c' = c.filter (fun x => !matchesKey k d x) ++ [d]
  | .add d _ _ _, .raise .arg, c, c' => c' = c ∧ ∃ k, key = some k ∧ 1 < (c.filter (matchesKey k d)).length
  | .delete n _, .ok o, c, c' => o.map (·.2) = c ∧ c' = (o.filter (fun x => x.1 != n)).map (·.2)
  | .deleteTerm p _ _, .ok _, c, c' => c' = c.filter (fun x => !p x)
  | .deleteQuery p _, .ok _, c, c' => c' = c.filter (fun x => !p x)
  | .optimize _ _, .ok _, c, c' => c' = c
  | .flush _, .ok _, c, c' => c' = c
  | .otherOpen, .ok _, c, c' => c' = c
  | .otherCommit x, .ok _, _, c' => c' = live x.docs
  | .otherClose, .ok _, c, c' => c' = c
  | _, _, _, _ => False

/-- A history of calls with what they gave takes the contents `c` to `c'`. -/
inductive Hist {α K V} (key : Option (Key α K V)) : List α → List (IndOp α × Res (List (Nat × α))) → List α → Prop
  | nil (c) : Hist key c [] c
  | cons {c c' c'' op r tr} : Effect key op r c c' → Hist key c' tr c'' → Hist key c ((op, r) :: tr) c''

/-- `σ` is tidy, and fields of terms that occur are known to writers. -/
def IndOp.Sound {α} : IndOp α → Prop
  | .read σ => Tidy σ
  | .add _ _ _ σ => Tidy σ
  | .delete _ σ => Tidy σ
  | .deleteTerm p known σ => Tidy σ ∧ ∀ l, (∃ d ∈ l, p d = true) → known l = true
  | .deleteQuery _ σ => Tidy σ
  | .optimize _ σ => Tidy σ
  | .flush σ => Tidy σ
  | _ => True

/-- Nobody else commits. -/
def Alone {α} (ops : List (IndOp α)) : Prop := ∀ c, IndOp.otherCommit c ∉ ops

/-- Between a commit of another process and a later index_delete_term there is a call that looks at
the index, and other processes commit at least one segment; `old`: such a call is missing. -/
def Looks {α} (old : Bool) : List (IndOp α) → Prop
  | [] => True
  | .otherCommit c :: ops => c.segs ≠ 0 ∧ Looks true ops
  | .deleteTerm _ _ _ :: ops => old = false ∧ Looks false ops
  | .flush _ :: ops => Looks old ops
  | .otherOpen :: ops => Looks old ops
  | .otherClose :: ops => Looks old ops
  | _ :: ops => Looks false ops

/-- Whether each call of the history that has changed the index through the Index commits at once with
auto_flush (index_delete_term does not). -/
def IndOp.flushes {α} : IndOp α → Bool
  | .add .. | .delete .. | .deleteQuery .. | .optimize .. | .flush _ => true
  | _ => false

/-- Each document has a value for each key field, and is found by exactly that value: the fields are
not tokenized and have one value. -/
structure ExactKey {α K V} (k : Key α K V) : Prop where
  some_ : k.fields ≠ []
  value : ∀ f ∈ k.fields, ∀ d, (k.value f d).isSome
  has : ∀ f ∈ k.fields, ∀ v x, k.has f v x = true ↔ k.value f x = some v

/-- Two documents with the same values of all key fields. -/
def SameKey {α K V} (k : Key α K V) (a b : α) : Prop := ∀ f ∈ k.fields, k.value f a = k.value f b

/-- No two documents have the same key. -/
def UniqueKeys {α K V} (k : Key α K V) (c : List α) : Prop := c.Pairwise fun a b => ¬ SameKey k a b

end Ferret.Spec
