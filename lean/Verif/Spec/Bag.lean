/-! Specification vocabulary for priority queues: an abstract bag of elements. `lt` is the
client's comparison, `lt a b = false` reads "a is not less than b". -/

namespace Ferret.Spec

variable {α : Type}

/-- A strict weak order given as a boolean comparison. -/
structure StrictWeak (lt : α → α → Bool) : Prop where
  asymm : ∀ a b, lt a b = true → lt b a = false
  negTrans : ∀ a b c, lt a b = false → lt b c = false → lt a c = false

/-- Calls on a bounded priority queue. -/
inductive PqCall (α : Type) where
  | push (e : α)
  | insert (e : α)
  | pop

/-- One abstract step on a bag (a list up to permutation). -/
inductive BagStep (lt : α → α → Bool) (capa : Nat) : List α → PqCall α → Option α → List α → Prop
  | push {bag bag' e} : bag'.Perm (e :: bag) → BagStep lt capa bag (.push e) none bag'
  | insertRoom {bag bag' e} : bag.length < capa → bag'.Perm (e :: bag) →
      BagStep lt capa bag (.insert e) none bag'
  | insertFull {bag bag' e d} : capa ≤ bag.length → (d :: bag').Perm (e :: bag) →
      (∀ x ∈ bag', lt x d = false) → BagStep lt capa bag (.insert e) none bag'
  | popEmpty : BagStep lt capa [] .pop none []
  | pop {bag bag' t} : (t :: bag').Perm bag → (∀ x ∈ bag, lt x t = false) →
      BagStep lt capa bag .pop (some t) bag'

/-- A history of abstract steps with its outputs. -/
inductive BagRun (lt : α → α → Bool) (capa : Nat) : List α → List (PqCall α) → List (Option α) → List α → Prop
  | nil {bag} : BagRun lt capa bag [] [] bag
  | cons {bag c o bag1 cs os bag2} : BagStep lt capa bag c o bag1 → BagRun lt capa bag1 cs os bag2 →
      BagRun lt capa bag (c :: cs) (o :: os) bag2

/-- `out` is a choice of the `k` greatest elements of `xs`, listed in ascending order. -/
structure GreatestAsc (lt : α → α → Bool) (k : Nat) (xs out : List α) : Prop where
  sorted : out.Pairwise (fun a b => lt b a = false)
  length : out.length = min k xs.length
  rest : ∃ rest, (out ++ rest).Perm xs ∧ ∀ a ∈ out, ∀ b ∈ rest, lt a b = false

end Ferret.Spec
