import Verif.Model.StreamRun
import Verif.Model.SegmentInfos

/-!
Compound files (c/src/compound_io.c). Output streams write at a position (C09); typed values are
their bytes (C08). The set of ids and the table of entries are searched by name (C05, C06).
-/

namespace Ferret.Compound
open Ferret Ferret.Spec Ferret.Store

/-- cw_add_file, compound_io.c 293–303: the ids so far, in order. -/
def cwAdd (ids : List Name) (id : Name) : Res (List Name) := if ids.contains id then .raise .io else .ok (ids ++ [id])

def cwAdds : List Name → List Name → Res (List Name)
  | ids, [] => .ok ids
  | ids, x :: xs => cwAdd ids x >>= fun ids => cwAdds ids xs

/-- Writing at the position of the stream. -/
def put (st : List Byte × Nat) (s : List Byte) : List Byte × Nat := (writeAt st.1 st.2 s, st.2 + s.length)

/-- The directory with all offsets at 0, compound_io.c 358–362; the positions of its entries. -/
def writeDir : List Byte × Nat → List Name → (List Byte × Nat) × List Nat
  | st, [] => (st, [])
  | st, id :: ids =>
    let r := writeDir (put (put st (beBytes 8 0)) (vstring id)) ids
    (r.1, st.2 :: r.2)

/-- cw_copy_file, compound_io.c 305–340: in blocks of BUFFER_SIZE; `fuel` bounds their number. -/
def copyFile : (fuel : Nat) → List Byte × Nat → List Byte → List Byte × Nat
  | 0, st, _ => st
  | fuel + 1, st, src => if src = [] then st else copyFile fuel (put st (src.take 1024)) (src.drop 1024)

/-- The files' data, compound_io.c 366–369; where each begins. -/
def writeData (d : Disk) : List Byte × Nat → List Name → Res ((List Byte × Nat) × List Nat)
  | st, [] => .ok (st, [])
  | st, id :: ids => Sis.openInput d id >>= fun c =>
    writeData d (copyFile c.length st c) ids >>= fun r => .ok (r.1, st.2 :: r.2)

/-- The offsets put into the directory, compound_io.c 372–375. -/
def patch : List Byte → List Nat → List Nat → List Byte
  | c, p :: ps, o :: os => patch (writeAt c p (beBytes 8 o)) ps os
  | c, _, _ => c

/-- cw_close, compound_io.c 342–384. The file is opened for output without being truncated (C10).
Members are read from the directory as it was, so `name` is not one of them. -/
def cwClose (d : Disk) (name : Name) (ids : List Name) : Res Disk :=
  if ids = [] then .raise .state
  else
    let old := (d.get name).getD []
    let dir := writeDir (put (old, 0) (vint ids.length)) ids
    writeData d dir.1 ids >>= fun r =>
    .ok ((d.filter fun p => !(p.1 == name)) ++ [(name, patch r.1.1 dir.2 r.2)])

/-- The loop of open_cmpd_store, compound_io.c 234–246: offsets and names. -/
def readEntry : Rd (Int × Name) := fun l =>
  rdBE 8 0 l >>= fun o => rdString o.2 >>= fun n => .ok ((toS 8 o.1, n.1), n.2)

/-- The lengths, compound_io.c 238–241, 254–256: up to the next offset, the last to the end. -/
def lengths (total : Int) : List (Int × Name) → List (Name × Int × Int)
  | [] => []
  | [(o, n)] => [(n, o, total - o)]
  | (o, n) :: (o', n') :: rest => (n, o, o' - o) :: lengths total ((o', n') :: rest)

/-- An open compound file: its bytes and entries. -/
structure Cmpd where
  base : List Byte
  entries : List (Name × Int × Int)

/-- open_cmpd_store, compound_io.c 213–275. A negative count reads no entries. -/
def cmpdOpen (d : Disk) (name : Name) : Res Cmpd :=
  Sis.openInput d name >>= fun base => rdVint base >>= fun n =>
  rdMany readEntry (if toS 4 n.1 > 0 then n.1 else 0) n.2 >>= fun es => .ok ⟨base, lengths base.length es.1⟩

/-- h_get of an entry: the last of equal names. -/
def find (c : Cmpd) (id : Name) : Option (Int × Int) := (c.entries.reverse.find? fun e => e.1 == id).map (·.2)

/-- cmpd_exists, compound_io.c 25–33. -/
def cmpdExists (c : Cmpd) (id : Name) : Bool := (find c id).isSome

/-- cmpd_length, compound_io.c 100–109. -/
def cmpdLength (c : Cmpd) (id : Name) : Int :=
  match find c id with
  | some (_, l) => l
  | none => 0

/-- cmpd_open_input, compound_io.c 152–189. Offsets or lengths below zero, of a file not written by
the code, are not modelled. -/
def cmpdOpenInput (c : Cmpd) (id : Name) : Res InS :=
  match find c id with
  | none => .raise .io
  | some (o, l) => if 0 ≤ o ∧ 0 ≤ l then .ok (isOpen (.cmpd c.base o.toNat l.toNat)) else .ub

end Ferret.Compound
