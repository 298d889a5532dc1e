/-
Common vocabulary of the model: outcomes of C functions.
-/

namespace Ferret

/-- Error classes raised by the library (c/include/except.h:56-69). Only the ones the
model needs are listed. -/
inductive Err where
  | eof | io | state | arg | fileNotFound | lock | unsupported | index | exception
  deriving DecidableEq, Repr

/-- Outcome of a modelled C function: a normal result, a raised library exception
(c/include/except.h RAISE), or undefined behaviour (out-of-allocation access, NULL
dereference, reading uninitialised memory ...). -/
inductive Res (α : Type) where
  | ok (a : α)
  | raise (e : Err)
  | ub
  deriving DecidableEq, Repr

namespace Res

@[simp] def bind {α β : Type} : Res α → (α → Res β) → Res β
  | .ok a, f => f a
  | .raise e, _ => .raise e
  | .ub, _ => .ub

instance : Monad Res where
  pure := .ok
  bind := Res.bind

@[simp] theorem pure_eq {α : Type} (a : α) : (pure a : Res α) = .ok a := rfl
@[simp] theorem ok_bind {α β : Type} (a : α) (f : α → Res β) : (Res.ok a >>= f) = f a := rfl
@[simp] theorem raise_bind {α β : Type} (e : Err) (f : α → Res β) :
    (Res.raise e >>= f) = Res.raise e := rfl
@[simp] theorem ub_bind {α β : Type} (f : α → Res β) : (Res.ub >>= f) = Res.ub := rfl

/-- Reading a C array of known extent: anything outside is undefined behaviour. -/
@[simp] def ofOption {α : Type} : Option α → Res α
  | some a => .ok a
  | none => .ub

theorem bind_eq_ok {α β : Type} {r : Res α} {f : α → Res β} {b : β} :
    (r >>= f) = .ok b ↔ ∃ a, r = .ok a ∧ f a = .ok b := by
  cases r <;> simp [Bind.bind]

/-- Is the outcome undefined behaviour? -/
def isUB {α : Type} : Res α → Bool
  | .ub => true
  | _ => false

end Res
end Ferret
