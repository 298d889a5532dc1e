/-!
Exceptions: the macros of c/include/except.h 114–143 (FRT_TRY, FRT_XENDTRY, FRT_ENDTRY, FRT_XFINALLY, FRT_XCATCHALL,
FRT_HANDLED) and the functions of c/src/except.c 36–101 (xpush_context, xraise_context, xraise, xpop_context), as a machine
for programs made of statements, blocks and RAISE. setjmp remembers what follows the block, longjmp goes there.

Simplifications.
* Other statements are observable marks. A called function is its body; RETURN_EARLY and `return` inside blocks are left out.
* The blocks are those the library and the documentation use: a body with XFINALLY, with XCATCHALL, with one group of `case`
  labels (XENDTRY), and with one group of `case` labels and `case FINALLY` (ENDTRY). Bodies and cases end with `break`.
* Codes are those of exceptions (2 and more): a raised 0 or 1 would be taken for BODY or FINALLY.
* HANDLED names the innermost block around it, which is the top context; in a FINALLY part it is not, and programs with
  HANDLED there are not modelled (`Spec.smooth` excludes them). It does not compile outside blocks. Exceptions no block catches end the program (XEXIT).
* One thread; every thread has a stack of contexts of its own (except.c 28–34).
-/

namespace Ferret.Except

/-- Statements. -/
inductive Cmd where
  | skip
  | act (n : Nat)
  | raise (x : Nat)
  | handled
  | seq (a b : Cmd)
  /-- `TRY body XFINALLY last XENDTRY` -/
  | fin (body last : Cmd)
  /-- `TRY body XCATCHALL last XENDTRY` -/
  | catchAll (body last : Cmd)
  /-- `TRY body break; case x: … h break; XENDTRY` -/
  | case (xs : List Nat) (body h : Cmd)
  /-- `TRY body break; case x: … h break; case FINALLY: last ENDTRY` -/
  | full (xs : List Nat) (body h last : Cmd)
  deriving DecidableEq, Repr

/-- The `switch` of a block, as far as longjmp needs it. -/
inductive Kind where
  | last (f : Cmd)
  | case (xs : List Nat) (h : Cmd)
  | full (xs : List Nat) (h f : Cmd)
  deriving DecidableEq, Repr

/-- What follows a statement: another one, the `default: in_finally = 1` a body falls through to, XENDTRY, ENDTRY. -/
inductive Frame where
  | seq (c : Cmd)
  | enterLast (f : Cmd)
  | leave
  | endTry (f : Cmd)
  deriving DecidableEq, Repr

/-- xcontext_t, except.h 104–112; `kont` is what setjmp saved. -/
structure Ctx where
  kind : Kind
  kont : List Frame
  handled : Bool
  inFin : Bool
  exc : Nat
  deriving DecidableEq, Repr

/-- The machine: running, at the end, left by an exception nobody caught, or a context popped that is not there. -/
inductive St where
  | run (c : Cmd) (k : List Frame) (cs : List Ctx)
  | halt
  | exit (x : Nat)
  | ub
  deriving DecidableEq, Repr

/-- longjmp to a context with code `x`, except.h 114–119 and 139–141. -/
def jump (c : Ctx) (rest : List Ctx) (x : Nat) : St :=
  match c.kind with
  | .last f => .run f (.leave :: c.kont) ({ c with inFin := true } :: rest)
  | .case xs h => .run (if xs.contains x then h else .skip) (.leave :: c.kont) (c :: rest)
  | .full xs h f => .run (if xs.contains x then h else .skip) (.endTry f :: c.kont) (c :: rest)

/-- xraise_context on the top context, except.c 47–55; without one the program ends. -/
def raiseTo (x : Nat) : List Ctx → St
  | [] => .exit x
  | c :: rest => jump { c with exc := x, handled := false } rest x

/-- xraise, except.c 68–85. -/
def xraise (x : Nat) (k : List Frame) : List Ctx → St
  | [] => .exit x
  | c :: rest =>
    if !c.inFin then raiseTo x (c :: rest)
    else if c.handled then .run .skip k ({ c with exc := x, handled := false } :: rest)
    else .run .skip k (c :: rest)

/-- xpop_context, except.c 87–101, and what comes then. -/
def xpop (next : List Ctx → St) : List Ctx → St
  | [] => .ub
  | c :: rest => if c.handled then next rest else raiseTo c.exc rest

/-- FRT_TRY, except.h 114–119, xpush_context, except.c 36–45. -/
def newCtx (kind : Kind) (k : List Frame) : Ctx := ⟨kind, k, true, false, 0⟩

/-- One step; the mark left, if any. -/
def step : St → List Nat × St
  | .run .skip [] _ => ([], .halt)
  | .run .skip (.seq c :: k) cs => ([], .run c k cs)
  | .run .skip (.enterLast _ :: _) [] => ([], .ub)
  | .run .skip (.enterLast f :: k) (c :: cs) => ([], .run f (.leave :: k) ({ c with inFin := true } :: cs))
  | .run .skip (.leave :: k) cs => ([], xpop (fun rest => .run .skip k rest) cs)
  | .run .skip (.endTry f :: k) cs => ([], xpop (fun rest => .run f k rest) cs)
  | .run (.act n) k cs => ([n], .run .skip k cs)
  | .run (.raise x) k cs => ([], xraise x k cs)
  | .run .handled k [] => ([], .run .skip k [])
  | .run .handled k (c :: cs) => ([], .run .skip k ({ c with handled := true } :: cs))
  | .run (.seq a b) k cs => ([], .run a (.seq b :: k) cs)
  | .run (.fin b f) k cs => ([], .run b (.enterLast f :: k) (newCtx (.last f) k :: cs))
  | .run (.catchAll b h) k cs => ([], .run b (.leave :: k) (newCtx (.last h) k :: cs))
  | .run (.case xs b h) k cs => ([], .run b (.leave :: k) (newCtx (.case xs h) k :: cs))
  | .run (.full xs b h f) k cs => ([], .run b (.endTry f :: k) (newCtx (.full xs h f) k :: cs))
  | s => ([], s)

/-- Some steps: the marks left, and the state. -/
def exec : Nat → St → List Nat × St
  | 0, s => ([], s)
  | n + 1, s => let (t, s) := step s; let (u, s) := exec n s; (t ++ u, s)

end Ferret.Except
