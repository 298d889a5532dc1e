import Verif.Model.Basic

/-!
Enumerations of documents while documents are deleted through the same reader (C99). Terms are numbers. An index is a list of segments:
how many documents each has, and which of them, by number in the segment, have a term. A document is watched by an enumeration when in
its segment some document was deleted when the enumeration was opened: whether it is deleted is then looked at when it is its turn;
documents that are not watched are given whether they are deleted or not.
-/

namespace Ferret.Spec

/-- A segment: the number of its documents, and those that have a term. -/
structure EnumSeg where
  size : Nat
  docs : Nat → List Nat

/-- The documents with a term and whether they are watched, for segments from document `b` on. -/
def openItems (dead : List Nat) (t : Nat) : Nat → List EnumSeg → List (Nat × Bool)
  | _, [] => []
  | b, s :: r => (s.docs t).map (fun o => (b + o, dead.any (fun x => decide (b ≤ x) && decide (x < b + s.size)))) ++ openItems dead t (b + s.size) r

/-- The documents with a term. -/
def docsWith (t : Nat) : Nat → List EnumSeg → List Nat
  | _, [] => []
  | b, s :: r => (s.docs t).map (b + ·) ++ docsWith t (b + s.size) r

structure EnumState where
  /-- the documents deleted -/
  dead : List Nat
  /-- the enumerations: what they have yet to give; `none` when closed, or not to be used any more -/
  enums : List (Option (List (Nat × Bool)))

inductive EnumOp where
  /-- an enumeration of the documents with a term is opened -/
  | openEnum (t : Nat)
  | next (e : Nat)
  | skipTo (e target : Nat)
  | close (e : Nat)
  | delete (d : Nat)
  | undelete
  | isDeleted (d : Nat)
  /-- the first document with the term -/
  | lookup (t : Nat)
  /-- all documents with the term are deleted -/
  | deleteTerm (t : Nat)
  deriving DecidableEq

inductive EnumObs where
  | unit
  | bool (b : Bool)
  | doc (d : Option Nat)
  deriving DecidableEq

/-- The next document: those that are watched and deleted are passed over. -/
def giveNext (dead : List Nat) (items : List (Nat × Bool)) : Option Nat × List (Nat × Bool) :=
  match items.dropWhile (fun x => x.2 && decide (x.1 ∈ dead)) with
  | [] => (none, [])
  | x :: r => (some x.1, r)

/-- `none` when the call is not allowed: an enumeration that was closed, or that watches documents and all deletions were undone since
it was opened; or a document that does not exist. -/
def enumStep (segs : List EnumSeg) (s : EnumState) : EnumOp → Option (EnumObs × EnumState)
  | .openEnum t => some (.unit, { s with enums := s.enums ++ [some (openItems s.dead t 0 segs)] })
  | .next e => match s.enums[e]? with
    | some (some items) => some (.doc (giveNext s.dead items).1, { s with enums := s.enums.set e (some (giveNext s.dead items).2) })
    | _ => none
  | .skipTo e target => match s.enums[e]? with
    | some (some items) =>
      let g := giveNext s.dead (items.dropWhile (fun x => decide (x.1 < target)))
      some (.doc g.1, { s with enums := s.enums.set e (some g.2) })
    | _ => none
  | .close e => match s.enums[e]? with
    | some (some _) => some (.unit, { s with enums := s.enums.set e none })
    | _ => none
  | .delete d => some (.unit, if d < (segs.map (·.size)).sum then { s with dead := d :: s.dead } else s)
  | .undelete => some (.unit, ⟨[], s.enums.map (fun e => e.bind fun items => if items.any (·.2) then none else some items)⟩)
  | .isDeleted d => if d < (segs.map (·.size)).sum then some (.bool (decide (d ∈ s.dead)), s) else none
  | .lookup t => some (.doc ((docsWith t 0 segs).find? (fun d => !decide (d ∈ s.dead))), s)
  | .deleteTerm t => some (.unit, { s with dead := docsWith t 0 segs ++ s.dead })

def enumRun (segs : List EnumSeg) (s : EnumState) : List EnumOp → Option (List EnumObs × EnumState)
  | [] => some ([], s)
  | op :: ops => (enumStep segs s op).bind fun r => (enumRun segs r.2 ops).map fun r' => (r.1 :: r'.1, r'.2)

end Ferret.Spec
