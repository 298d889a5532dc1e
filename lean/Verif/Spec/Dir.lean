import Verif.Spec.Bytes

/-!
A directory of named files, as its users see it. A file is identified by a number given when it is
created; names are bound to files; streams refer to files, not to names. Files are never freed
here: a stream keeps seeing its file whatever happens to the name.
-/

namespace Ferret.Spec
open Ferret

abbrev Name := List Byte

structure DState where
  /-- contents of the files ever created -/
  files : List (List Byte)
  /-- which file a name stands for -/
  names : List (Name × Nat)
  /-- open output streams: file and position; `none` once closed -/
  outs : List (Option (Nat × Nat))
  /-- open input streams; `none` once closed -/
  ins : List (Option Nat)

inductive DOp where
  | touch (n : Name)
  | exist (n : Name)
  | remove (n : Name)
  | rename (a b : Name)
  | count
  | length (n : Name)
  | openOut (n : Name)
  | write (h : Nat) (bs : List Byte)
  | closeOut (h : Nat)
  | openIn (n : Name)
  | read (h pos len : Nat)
  | closeIn (h : Nat)
  | clear
  | clearLocks
  | clearAll
  deriving DecidableEq

inductive DObs where
  | unit
  | bool (b : Bool)
  | num (n : Nat)
  | bytes (l : List Byte)
  | error
  deriving DecidableEq

/-- ".lck" -/
def lckExt : Name := [46, 108, 99, 107]

/-- "ferret-" -/
def lockPrefix : Name := [102, 101, 114, 114, 101, 116, 45]

/-- The name of a lock file: longer than ".lck" and ending in it. -/
def isLockName (n : Name) : Bool := decide (4 < n.length) && (n.drop (n.length - 4) == lckExt)

def lookupName (l : List (Name × Nat)) (n : Name) : Option Nat := (l.find? (fun p => p.1 == n)).map (·.2)

def unbind (l : List (Name × Nat)) (n : Name) : List (Name × Nat) := l.filter (fun p => !(p.1 == n))

/-- `none` when the call is not allowed: a stream used after it was closed, or a read beyond the end
of the file. -/
def dstep (s : DState) : DOp → Option (DObs × DState)
  | .touch n => match lookupName s.names n with
    | some _ => some (.unit, s)
    | none => some (.unit, { s with files := s.files ++ [[]], names := (n, s.files.length) :: s.names })
  | .exist n => some (.bool (lookupName s.names n).isSome, s)
  | .remove n => some (.bool (lookupName s.names n).isSome, { s with names := unbind s.names n })
  | .rename a b => match lookupName s.names a with
    | none => some (.error, s)
    | some i => some (.unit, { s with names := (b, i) :: unbind (unbind s.names a) b })
  | .count => some (.num s.names.length, s)
  | .length n => match lookupName s.names n with
    | none => some (.num 0, s)
    | some i => (s.files[i]?).map (fun f => (.num f.length, s))
  | .openOut n => match lookupName s.names n with
    | some i => some (.num s.outs.length, { s with outs := s.outs ++ [some (i, 0)] })
    | none => some (.num s.outs.length, { s with
        files := s.files ++ [[]], names := (n, s.files.length) :: s.names, outs := s.outs ++ [some (s.files.length, 0)] })
  | .write h bs => match s.outs[h]? with
    | some (some (i, p)) => (s.files[i]?).map (fun f =>
        (.unit, { s with files := s.files.set i (writeAt f p bs), outs := s.outs.set h (some (i, p + bs.length)) }))
    | _ => none
  | .closeOut h => match s.outs[h]? with
    | some (some _) => some (.unit, { s with outs := s.outs.set h none })
    | _ => none
  | .openIn n => match lookupName s.names n with
    | none => some (.error, s)
    | some i => some (.num s.ins.length, { s with ins := s.ins ++ [some i] })
  | .read h pos len => match s.ins[h]? with
    | some (some i) => match s.files[i]? with
      | some f => if pos + len ≤ f.length then some (.bytes (slice f pos len), s) else none
      | none => none
    | _ => none
  | .closeIn h => match s.ins[h]? with
    | some (some _) => some (.unit, { s with ins := s.ins.set h none })
    | _ => none
  | .clear => some (.unit, { s with names := s.names.filter (fun p => isLockName p.1) })
  | .clearLocks => some (.unit, { s with names := s.names.filter (fun p => !isLockName p.1) })
  | .clearAll => some (.unit, { s with names := [] })

def drun (s : DState) : List DOp → Option (List DObs × DState)
  | [] => some ([], s)
  | op :: ops => (dstep s op).bind fun r => (drun r.2 ops).map fun r' => (r.1 :: r'.1, r'.2)

def emptyDir : DState := ⟨[], [], [], []⟩

end Ferret.Spec
