import Verif.Model.FieldInfos
import Verif.Model.Names
import Verif.Spec.Disk

/-!
Segment infos, the segments file and how it is found (c/src/index.c 559–1193). Streams carry bytes
(C08, C09); a file is written one byte after the other. Errors of the operating system while
writing are not modelled (a process stopped at any point is). Sleeping is not modelled.
-/

namespace Ferret.Sis
open Ferret Ferret.Spec Ferret.Fis Ferret.Names

/-- FrtSegmentInfo, c/include/index.h; `norm_gens_size` is the length of the list. -/
structure SI where
  name : Name
  docCnt : Int
  delGen : Int
  normGens : List Int
  compound : Bool
  deriving DecidableEq, Repr

/-- FrtSegmentInfos, c/include/index.h. -/
structure SIS where
  version : Nat
  counter : Nat
  generation : Int
  format : Nat
  segs : List SI
  fis : FIS
  deriving DecidableEq, Repr

/-- si_new, index.c 565–577. -/
def siNew (name : Name) (docCnt : Int) : SI := ⟨name, docCnt, -1, [], false⟩

/-- si_advance_norm_gen, index.c 657–668. -/
def advanceNormGen (si : SI) (field : Nat) : SI :=
  let gens := if field ≥ si.normGens.length then si.normGens ++ List.replicate (field + 1 - si.normGens.length) (-1) else si.normGens
  { si with normGens := gens.modify field (· + 1) }

/-- sis_new, index.c 1008–1021; `now` is the time. -/
def sisNew (fis : FIS) (now : Nat) : SIS := ⟨now, 0, -1, 0, [], fis⟩

/-- sis_new_segment with sis_add_si, index.c 1023–1026, 1040–1048. -/
def newSeg (s : SIS) (docCnt : Int) : Res SIS :=
  newSegment s.counter >>= fun n => .ok { s with counter := (s.counter + 1) % 2 ^ 64, segs := s.segs ++ [siNew n docCnt] }

/-- sis_del_at, index.c 1050–1058: outside the array is undefined. -/
def delAt (s : SIS) (i : Nat) : Res SIS := if i < s.segs.length then .ok { s with segs := s.segs.eraseIdx i } else .ub

/-- sis_del_from_to, index.c 1060–1070. -/
def delFromTo (s : SIS) (i j : Nat) : Res SIS :=
  if i ≤ j ∧ j ≤ s.segs.length then .ok { s with segs := s.segs.take i ++ s.segs.drop j } else .ub

/-- si_write, index.c 604–617. -/
def siWrite (si : SI) : List Byte :=
  vstring si.name ++ (vint (toU 4 si.docCnt) ++ (vint (toU 4 si.delGen) ++ (vint si.normGens.length ++
    ((si.normGens.reverse.map fun g => vint (toU 4 g)).flatten ++ [if si.compound then 1 else 0]))))

/-- An int read as a vint. -/
def rdSvint : Rd Int := fun l => rdVint l >>= fun r => .ok (toS 4 r.1, r.2)

/-- si_read, index.c 579–602. A negative `norm_gens_size` reads as no norm generations (it would be
kept as it is). -/
def siRead : Rd SI := fun l =>
  rdString l >>= fun name => rdSvint name.2 >>= fun docs => rdSvint docs.2 >>= fun del => rdVint del.2 >>= fun n =>
  rdMany rdSvint (if toS 4 n.1 > 0 then n.1 else 0) n.2 >>= fun gens => rdByte gens.2 >>= fun c =>
  .ok (⟨name.1, docs.1, del.1, gens.1.reverse, c.1 != 0⟩, c.2)

/-- What sis_write writes to the segments file, index.c 1140–1147 (FORMAT is 0). -/
def sisBytes (s : SIS) : List Byte :=
  beBytes 4 0 ++ (beBytes 8 s.version ++ (beBytes 8 s.counter ++ (vint s.segs.length ++ ((s.segs.map siWrite).flatten ++ fisWrite s.fis))))

/-- The reading of sis_read_i, index.c 1096–1111. A count beyond 2^30 overflows the capacity
doubled at 1103. A negative count reads no segments. -/
def sisParse (gen : Int) : Rd SIS := fun l =>
  rdBE 4 0 l >>= fun fmt => rdBE 8 0 fmt.2 >>= fun ver => rdBE 8 0 ver.2 >>= fun cnt => rdVint cnt.2 >>= fun n =>
  if toS 4 n.1 > 2 ^ 30 then .ub
  else rdMany siRead (if toS 4 n.1 > 0 then n.1 else 0) n.2 >>= fun segs => fisRead segs.2 >>= fun fis =>
  .ok (⟨ver.1, cnt.1, gen, fmt.1, segs.1, fis.1⟩, fis.2)

/-- store->open_input, fs_store.c 335–350. -/
def openInput (d : Disk) (n : Name) : Res (List Byte) :=
  match d.get n with
  | some c => .ok c
  | none => .raise .fileNotFound

/-- sis_read_i, index.c 1082–1120. -/
def sisReadI (d : Disk) (gen : Int) : Res SIS :=
  segfn (toU 8 gen) >>= fun n => openInput d n >>= fun c => sisParse gen c >>= fun r => .ok r.1

/-- sis_read_ver_i, index.c 1169–1186. -/
def sisReadVerI (d : Disk) (gen : Int) : Res Nat :=
  segfn (toU 8 gen) >>= fun n => openInput d n >>= fun c => rdBE 4 0 c >>= fun f => rdBE 8 0 f.2 >>= fun v => .ok v.1

/-- The variables of sis_find_segments_file, index.c 835–840. -/
structure Find where
  gen : Int
  lastGen : Int
  retry : Bool
  method : Nat
  ahead : Nat
  deriving DecidableEq, Repr

/-- The content of the file "segments" against the generation, index.c 868–897. Two numbers are
read, each -1 if it cannot be read; if they agree and are larger they are taken. -/
def genFile (d : Disk) (gen : Int) : Int :=
  match d.get segmentsFile with
  | none => gen
  | some c =>
    match rdBE 8 0 c with
    | .ok (g0, c) =>
      match rdBE 8 0 c with
      | .ok (g1, _) => if toS 8 g0 = toS 8 g1 ∧ toS 8 g0 > gen then toS 8 g0 else gen
      | _ => if toS 8 g0 = -1 ∧ toS 8 g0 > gen then toS 8 g0 else gen
    | _ => if (-1 : Int) > gen then -1 else gen

/-- Is it an error the search handles, index.c 945, 997? -/
def handled : Err → Bool
  | .io | .fileNotFound | .eof => true
  | _ => false

/-- Which generation is tried next, index.c 853–938. -/
def findGen (d : Disk) (s : Find) : Res Find :=
  (if s.method = 0 then
    currentGeneration (-1) d.names >>= fun g => if g = -1 then .raise .fileNotFound else .ok { s with gen := g }
   else .ok s) >>= fun s =>
  let s := if s.method = 1 ∨ (s.method = 0 ∧ s.lastGen = s.gen ∧ s.retry = true) then { s with method := 1, gen := genFile d s.gen } else s
  let s := if s.method = 2 ∨ (s.method = 1 ∧ s.lastGen = s.gen ∧ s.retry = true) then
      (if s.ahead < 10 then { s with method := 2, gen := s.gen + 1, ahead := s.ahead + 1 } else { s with method := 2 })
    else s
  (if s.lastGen = s.gen then (if s.retry then .raise .io else .ok { s with retry := true }) else .ok { s with retry := false }) >>= fun s =>
  .ok { s with lastGen := s.gen }

/-- The trial of that generation and of the one before, index.c 940–1004: `none` is to go on. -/
def findTry {α : Type} (d : Disk) (run : Int → Res α) (s : Find) : Res (Option α) :=
  match run s.gen with
  | .ok x => .ok (some x)
  | .ub => .ub
  | .raise e =>
    if handled e then
      if s.retry = false ∧ s.gen > 1 then
        segfn (toU 8 (s.gen - 1)) >>= fun prev =>
        if (d.get prev).isSome then
          match run (s.gen - 1) with
          | .ok x => .ok (some x)
          | .ub => .ub
          | .raise e => if handled e then .ok none else .raise e
        else .ok none
      else .ok none
    else .raise e

/-- The loop of sis_find_segments_file, index.c 852–1005, in a directory that does not change
meanwhile; running out of `fuel` would be running on and is undefined here. -/
def findLoop {α : Type} (d : Disk) (run : Int → Res α) : Nat → Find → Res α
  | 0, _ => .ub
  | fuel + 1, s => findGen d s >>= fun s => findTry d run s >>= fun r =>
    match r with
    | some x => .ok x
    | none => findLoop d run fuel s

/-- sis_find_segments_file, index.c 832–1006. -/
def findSegments {α : Type} (d : Disk) (run : Int → Res α) : Res α := findLoop d run 64 ⟨0, -1, false, 0, 0⟩

/-- sis_read, index.c 1122–1127. -/
def sisRead (d : Disk) : Res SIS := findSegments d (sisReadI d)

/-- sis_read_current_version, index.c 1188–1193. -/
def readCurrentVersion (d : Disk) : Res Nat := findSegments d (sisReadVerI d)

/-- The segment infos after sis_write, index.c 1135, 1141. -/
def committed (s : SIS) : SIS := { s with generation := s.generation + 1, version := (s.version + 1) % 2 ^ 64 }

/-- What sis_write does to the directory, index.c 1129–1167; with a deleter the previous segments
file is removed, deleter_delete_file 3708–3719 (removal is taken to succeed). -/
def sisWrite (s : SIS) (deleter : Bool) : Res (List DiskEv) :=
  let s' := committed s
  segfn (toU 8 s'.generation) >>= fun n =>
  segfn (toU 8 (s'.generation - 1)) >>= fun prev =>
  .ok (writeFile n (sisBytes s') ++ (writeFile segmentsFile (beBytes 8 (toU 8 s'.generation) ++ beBytes 8 (toU 8 s'.generation)) ++
    (if deleter = true ∧ s'.generation > 0 then [.del prev] else [])))

end Ferret.Sis
