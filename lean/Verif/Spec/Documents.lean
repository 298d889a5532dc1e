import Verif.Model.Basic
import Verif.Spec.Bytes

/-!
What a program that uses documents should see (C97): a field is a name and texts, a document is fields with different names. Things are numbered in the order they were made.
A call that the rules do not allow is `none`.
-/

namespace Ferret.Spec
open Ferret

inductive Thing where
  | text (b : List Byte)
  /-- a field: its name, where its texts are and how many bytes of each belong to it, and whether it frees them -/
  | field (name : List Byte) (data : List (Nat × Nat)) (own : Bool)
  /-- a document: its fields by name -/
  | doc (fields : List (List Byte × Nat))
  | freed
  deriving DecidableEq

/-- What a program may do with documents. -/
inductive DocCall where
  | text (b : List Byte)
  | field (name : List Byte)
  | own (f : Nat) (b : Bool)
  | add (f s : Nat)
  | addLen (f s : Nat) (len : Int)
  | doc
  | put (d f : Nat)
  | get (d : Nat) (name : List Byte)
  | showField (f : Nat)
  | showDoc (d : Nat)
  | dropText (s : Nat)
  | dropField (f : Nat)
  | dropDoc (d : Nat)

inductive DocOut where
  | ref (a : Nat)
  | null
  | bytes (b : List Byte)
  | error
  | done
  deriving DecidableEq

/-- The texts of a field, if they are all there. -/
def textsOf (W : List Thing) : List (Nat × Nat) → Option (List (List Byte))
  | [] => some []
  | x :: xs =>
    match W[x.1]?, textsOf W xs with
    | some (.text b), some r => some (b.take x.2 :: r)
    | _, _ => none

def quoted (b : List Byte) : List Byte := [34] ++ b ++ [34]

/-- `name: "text"`, or `name: ["text", "text"]`. -/
def docFieldText (name : List Byte) (ds : List (List Byte)) : List Byte :=
  name ++ [58, 32] ++
    match ds with
    | [] => []
    | [d] => quoted d
    | ds => [91] ++ List.intercalate [44, 32] (ds.map quoted) ++ [93]

/-- The text of a field in memory. -/
def textOfField (W : List Thing) (f : Nat) : Option (List Byte) :=
  match W[f]? with
  | some (.field name data _) => (textsOf W data).map (docFieldText name)
  | _ => none

def textsOfFields (W : List Thing) : List Nat → Option (List (List Byte))
  | [] => some []
  | f :: fs =>
    match textOfField W f, textsOfFields W fs with
    | some t, some r => some (t :: r)
    | _, _ => none

/-- "Document [", and each field in a line of its own after "  =>". -/
def docText (ts : List (List Byte)) : List Byte :=
  [68, 111, 99, 117, 109, 101, 110, 116, 32, 91, 10] ++ ts.flatMap fun t => [32, 32, 61, 62] ++ t ++ [10]

/-- Freeing texts that are all there. -/
def freeTexts (W : List Thing) : List Nat → Option (List Thing)
  | [] => some W
  | s :: ss =>
    match W[s]? with
    | some (.text _) => freeTexts (W.set s .freed) ss
    | _ => none

/-- Freeing a field, with its texts if it owns them. -/
def freeField (W : List Thing) (f : Nat) : Option (List Thing) :=
  match W[f]? with
  | some (.field _ data own) =>
    if own then (freeTexts W (data.map (·.1))).map fun W => W.set f .freed else some (W.set f .freed)
  | _ => none

def freeFields (W : List Thing) : List Nat → Option (List Thing)
  | [] => some W
  | f :: fs => (freeField W f).bind fun W => freeFields W fs

/-- A call, what it gives, and what there is afterwards. -/
def docStep (W : List Thing) : DocCall → Option (DocOut × List Thing)
  | .text b => some (.ref W.length, W ++ [.text b])
  | .field name => if name.contains 0 then none else some (.ref W.length, W ++ [.field name [] false])
  | .own f b =>
    match W[f]? with
    | some (.field name data _) => some (.done, W.set f (.field name data b))
    | _ => none
  | .add f s =>
    match W[f]?, W[s]? with
    | some (.field name data own), some (.text b) =>
      if data.length < 2 ^ 29 then some (.ref f, W.set f (.field name (data ++ [(s, (b.takeWhile (fun c => decide (c ≠ 0))).length)]) own)) else none
    | _, _ => none
  | .addLen f s len =>
    match W[f]?, W[s]? with
    | some (.field name data own), some (.text b) =>
      if data.length < 2 ^ 29 ∧ 0 ≤ len ∧ len ≤ b.length then some (.ref f, W.set f (.field name (data ++ [(s, len.toNat)]) own)) else none
    | _, _ => none
  | .doc => some (.ref W.length, W ++ [.doc []])
  | .put d f =>
    match W[d]?, W[f]? with
    | some (.doc fs), some (.field name _ _) =>
      if 2 ^ 29 ≤ fs.length then none
      else if fs.any (fun p => decide (p.1 = name)) then some (.error, W)
      else some (.ref f, W.set d (.doc (fs ++ [(name, f)])))
    | _, _ => none
  | .get d name =>
    match W[d]? with
    | some (.doc fs) =>
      if name.contains 0 then none
      else some ((match fs.find? (fun p => decide (p.1 = name)) with | some p => .ref p.2 | none => .null), W)
    | _ => none
  | .showField f =>
    match textOfField W f with
    | some t => if t.length + 5 < 2 ^ 31 then some (.bytes t, W) else none
    | none => none
  | .showDoc d =>
    match W[d]? with
    | some (.doc fs) =>
      match textsOfFields W (fs.map (·.2)) with
      | some ts => if (docText ts).length + 5 < 2 ^ 31 ∧ ts.all (fun t => !t.contains 0) then some (.bytes (docText ts), W) else none
      | none => none
    | _ => none
  | .dropText s =>
    match W[s]? with
    | some (.text _) => some (.done, W.set s .freed)
    | _ => none
  | .dropField f => (freeField W f).map fun W => (.done, W)
  | .dropDoc d =>
    match W[d]? with
    | some (.doc fs) => (freeFields W (fs.map (·.2))).map fun W => (.done, W.set d .freed)
    | _ => none

def docRun (W : List Thing) : List DocCall → Option (List DocOut × List Thing)
  | [] => some ([], W)
  | c :: cs => (docStep W c).bind fun p => (docRun p.2 cs).map fun q => (p.1 :: q.1, q.2)

end Ferret.Spec
