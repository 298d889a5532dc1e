import Verif.Spec.Bytes

/-! What files, streams and typed values should do, with no buffers in sight. -/

namespace Ferret.Spec

/-- Operations on an open output stream. -/
inductive OutOp where
  | byte (b : Byte) | bytes (s : List Byte) | seek (p : Nat) | flush

/-- Direct positional writes on (content, position); seeking past the end is not covered. -/
def outOp : List Byte × Nat → OutOp → Option (List Byte × Nat)
  | (d, p), .byte b => some (writeAt d p [b], p + 1)
  | (d, p), .bytes s => some (writeAt d p s, p + s.length)
  | (d, _), .seek q => if q ≤ d.length then some (d, q) else none
  | (d, p), .flush => some (d, p)

def outOps : List Byte × Nat → List OutOp → Option (List Byte × Nat)
  | st, [] => some st
  | st, op :: ops => (outOp st op).bind (outOps · ops)

/-- The content after opening for output, operating and closing, several times over. -/
def sessions : List Byte → List (List OutOp) → Option (List Byte)
  | d, [] => some d
  | d, ops :: rest => (outOps (d, 0) ops).bind fun st => sessions st.1 rest

/-- Commands on a family of input streams over one file: the operation applies to stream `i`. -/
inductive InCmd where
  | byte (i : Nat) | bytes (i n : Nat) | seek (i p : Nat) | pos (i : Nat) | clone (i : Nat)

inductive InObs where
  | byte (b : Byte) | eof | bytes (s : List Byte) | pos (p : Nat) | done
  deriving DecidableEq

/-- Stream `i` is just a position in the content. Naming a stream that does not exist and reading
a block that goes past the end are not covered. -/
def inCmd (d : List Byte) (ps : List Nat) : InCmd → Option (InObs × List Nat)
  | .byte i => ps[i]?.map fun p => match d[p]? with
    | some b => (.byte b, ps.set i (p + 1))
    | none => (.eof, ps)
  | .bytes i n => ps[i]?.bind fun p => if p + n ≤ d.length then some (.bytes (slice d p n), ps.set i (p + n)) else none
  | .seek i q => ps[i]?.map fun _ => (.done, ps.set i q)
  | .pos i => ps[i]?.map fun p => (.pos p, ps)
  | .clone i => ps[i]?.map fun p => (.done, ps ++ [p])

def inCmds (d : List Byte) : List Nat → List InCmd → Option (List InObs)
  | _, [] => some []
  | ps, c :: cs => (inCmd d ps c).bind fun r => (inCmds d r.2 cs).map (r.1 :: ·)

/-- Values with their types. -/
inductive Val where
  | byte (b : Byte) | u32 (n : Nat) | u64 (n : Nat) | i32 (x : Int) | i64 (x : Int)
  | vint (n : Nat) | voff (x : Int) | vll (n : Nat) | str (s : List Byte) | block (s : List Byte)
  deriving DecidableEq

/-- The value is one of its type (an offset is not negative, a length fits an `int`). -/
def Val.fits : Val → Prop
  | .byte _ => True
  | .u32 n => n < 2 ^ 32
  | .u64 n => n < 2 ^ 64
  | .i32 x => -2 ^ 31 ≤ x ∧ x < 2 ^ 31
  | .i64 x => -2 ^ 63 ≤ x ∧ x < 2 ^ 63
  | .vint n => n < 2 ^ 32
  | .voff x => 0 ≤ x ∧ x < 2 ^ 63
  | .vll n => n < 2 ^ 64
  | .str s => s.length < 2 ^ 31
  | .block s => s.length < 2 ^ 31

instance : DecidablePred Val.fits := fun v => by cases v <;> unfold Val.fits <;> infer_instance

/-- What the reader has to know to read a value. -/
inductive Kind where
  | byte | u32 | u64 | i32 | i64 | vint | voff | vll | str | block (n : Nat)

def Val.kind : Val → Kind
  | .byte _ => .byte | .u32 _ => .u32 | .u64 _ => .u64 | .i32 _ => .i32 | .i64 _ => .i64
  | .vint _ => .vint | .voff _ => .voff | .vll _ => .vll | .str _ => .str | .block s => .block s.length

end Ferret.Spec
