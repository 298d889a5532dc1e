import Verif.Model.Except

/-!
What blocks with exceptions mean, read off the documentation of except.h, independently of contexts and jumps.

A statement ends normally or lets an exception out. Inside a FINALLY or CATCHALL part an exception does not stop the part: it
is kept, unless one is kept already, and the part goes on; what is kept when the part ends leaves the block. HANDLED drops it.
-/

namespace Ferret.Spec
open Ferret.Except

/-- How a statement ends; `pending` is the exception kept in the block around it. -/
inductive Ends where
  | normal (pending : Option Nat)
  | thrown (x : Nat)
  deriving DecidableEq, Repr

/-- An exception leaves a block: it is thrown, or kept by the part around the block. -/
def lets (inLast : Bool) (p : Option Nat) (x : Nat) : Ends :=
  if inLast then .normal (some (p.getD x)) else .thrown x

/-- A block ends with an exception kept, or without. -/
def leaves (inLast : Bool) (p : Option Nat) : Ends → Ends
  | .normal none => .normal p
  | .normal (some x) => lets inLast p x
  | .thrown x => lets inLast p x

/-- The marks a statement leaves and how it ends: inside a FINALLY or CATCHALL part or not, with what is pending. -/
def means (inLast : Bool) (p : Option Nat) : Cmd → List Nat × Ends
  | .skip => ([], .normal p)
  | .act n => ([n], .normal p)
  | .raise x => ([], lets inLast p x)
  | .handled => ([], .normal none)
  | .seq a b =>
    match means inLast p a with
    | (t, .normal p) => let (u, e) := means inLast p b; (t ++ u, e)
    | (t, .thrown x) => (t, .thrown x)
  | .fin b f =>
    match means false none b with
    | (t, .normal _) => let (u, e) := means true none f; (t ++ u, leaves inLast p e)
    | (t, .thrown x) => let (u, e) := means true (some x) f; (t ++ u, leaves inLast p e)
  | .catchAll b h =>
    match means false none b with
    | (t, .normal _) => (t, .normal p)
    | (t, .thrown x) => let (u, e) := means true (some x) h; (t ++ u, leaves inLast p e)
  | .case xs b h =>
    match means false none b with
    | (t, .normal _) => (t, .normal p)
    | (t, .thrown x) =>
      if xs.contains x then let (u, e) := means false (some x) h; (t ++ u, leaves inLast p e)
      else (t, lets inLast p x)
  | .full xs b h f =>
    let (t, e) :=
      match means false none b with
      | (t, .normal _) => (t, Ends.normal none)
      | (t, .thrown x) =>
        if xs.contains x then let (u, e) := means false (some x) h; (t ++ u, e) else (t, .thrown x)
    match e with
    | .normal none => let (u, e) := means inLast p f; (t ++ u, e)
    | .normal (some x) =>
      match means inLast p f with
      | (u, .normal p) => (t ++ u, lets inLast p x)
      | (u, .thrown y) => (t ++ u, .thrown y)
    | .thrown x =>
      match means inLast p f with
      | (u, .normal p) => (t ++ u, lets inLast p x)
      | (u, .thrown y) => (t ++ u, .thrown y)

/-- No exception gets out. -/
def Ends.quiet : Ends → Bool
  | .normal none => true
  | _ => false

/-- The block ends without an exception, or it does not stand in a FINALLY or CATCHALL part. -/
def mayLeave (inLast : Bool) (e : Ends) : Bool := !inLast || e.quiet

/-- HANDLED does not stand in the part itself. -/
def unhandled : Cmd → Bool
  | .handled => false
  | .seq a b => unhandled a && unhandled b
  | _ => true

/-- During the run: no block inside a FINALLY or CATCHALL part lets an exception out; no `case` part raises what it catches;
every exception in a block with a FINALLY part is caught there and handled. -/
def smooth (inLast : Bool) (p : Option Nat) : Cmd → Bool
  | .skip => true
  | .act _ => true
  | .raise _ => true
  | .handled => true
  | .seq a b =>
    smooth inLast p a && match (means inLast p a).2 with
      | .normal p => smooth inLast p b
      | .thrown _ => true
  | .fin b f =>
    smooth false none b && match (means false none b).2 with
      | .normal _ => smooth true none f && mayLeave inLast (means true none f).2
      | .thrown x => smooth true (some x) f && mayLeave inLast (means true (some x) f).2
  | .catchAll b h =>
    smooth false none b && match (means false none b).2 with
      | .normal _ => true
      | .thrown x => smooth true (some x) h && mayLeave inLast (means true (some x) h).2
  | .case xs b h =>
    smooth false none b && match (means false none b).2 with
      | .normal _ => true
      | .thrown x =>
        if xs.contains x then
          smooth false (some x) h && mayLeave inLast (means false (some x) h).2 &&
            (match (means false (some x) h).2 with | .thrown y => !xs.contains y | _ => true)
        else !inLast
  | .full xs b h f =>
    smooth false none b && unhandled f && smooth inLast p f && match (means false none b).2 with
      | .normal _ => true
      | .thrown x => xs.contains x && smooth false (some x) h && (means false (some x) h).2.quiet

end Ferret.Spec
