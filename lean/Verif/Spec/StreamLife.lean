/-! Streams being opened, copied, read and closed: who may do what, and which files must be open. -/

namespace Ferret.Spec

/-- What a client does; streams are numbered as they are made. `member s`: open a file that is part of the file stream `s` reads. -/
inductive StreamOp where
  | openFile
  | member (s : Nat)
  | copy (h : Nat)
  | close (h : Nat)
  | read (h : Nat)
  deriving DecidableEq

/-- The streams (of which opened file, and whether it is not closed yet), and for each opened file, the stream it is part of, if
it is. -/
structure Streams where
  hs : List (Nat × Bool) := []
  subs : List (Option Nat) := []
  deriving DecidableEq

/-- The streams of an opened file that are not closed. -/
def Streams.users (sp : Streams) (f : Nat) : Nat := sp.hs.countP fun x => decide (x = (f, true))

/-- Some stream of a part of what stream `s` reads is not closed. -/
def Streams.hasParts (sp : Streams) (s : Nat) : Bool := sp.hs.any fun x => x.2 && decide (sp.subs[x.1]? = some (some s))

/-- One operation; `none` for what no client may do: using a closed stream. With `ordered`, also closing a stream before
those of its parts. -/
def streamsStep (ordered : Bool) (sp : Streams) : StreamOp → Option Streams
  | .openFile => some { hs := sp.hs ++ [(sp.subs.length, true)], subs := sp.subs ++ [none] }
  | .member s =>
    match sp.hs[s]? with
    | some (f, true) => if sp.subs[f]? = some none then some { hs := sp.hs ++ [(sp.subs.length, true)], subs := sp.subs ++ [some s] } else none
    | _ => none
  | .copy h =>
    match sp.hs[h]? with
    | some (f, true) => some { sp with hs := sp.hs ++ [(f, true)] }
    | _ => none
  | .close h =>
    match sp.hs[h]? with
    | some (f, true) => if ordered && sp.hasParts h then none else some { sp with hs := sp.hs.set h (f, false) }
    | _ => none
  | .read h =>
    match sp.hs[h]? with
    | some (_, true) => some sp
    | _ => none

def streamsRun (ordered : Bool) (sp : Streams) : List StreamOp → Option Streams
  | [] => some sp
  | op :: ops => (streamsStep ordered sp op).bind fun x => streamsRun ordered x ops

end Ferret.Spec
