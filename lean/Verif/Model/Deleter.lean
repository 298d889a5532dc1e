import Verif.Model.SegmentInfos

/-!
The deleter of unused files (c/src/index.c 3620–3860). Removing a file is taken to succeed: what
fails stays in the pending set and is tried again.
-/

namespace Ferret.Dlr
open Ferret Ferret.Spec Ferret.Names Ferret.Sis

/-- strrchr: what is before and after the last `c`. -/
def splitLast (c : Byte) : Name → Option (Name × Name)
  | [] => none
  | x :: xs => match splitLast c xs with
    | some (a, b) => some (x :: a, b)
    | none => if x = c then some ([], xs) else none

/-- INDEX_EXTENSIONS, index.c 50–52: frq prx fdx fdt tfx tix tis del gen cfs. -/
def indexExts : List Name :=
  [[102, 114, 113], [112, 114, 120], [102, 100, 120], [102, 100, 116], [116, 102, 120], [116, 105, 120], [116, 105, 115],
   [100, 101, 108], [103, 101, 110], [99, 102, 115]]

/-- isdigit of the character after the first, index.c 3641–3642, 3673–3674, 3803. -/
def digit1 (ext : Name) : Bool :=
  match ext with
  | _ :: c :: _ => 48 ≤ c && c ≤ 57
  | _ => false

/-- file_name_filter_is_index_file with include_locks false, index.c 3631–3655. -/
def isIndexFile (n : Name) : Bool :=
  match splitLast 46 n with
  | some (_, ext) => indexExts.contains ext || ((ext.head? == some 102 || ext.head? == some 115) && digit1 ext)
  | none => segmentsFile.isPrefixOf n

/-- file_name_filter_is_cfs_file, index.c 3662–3679. -/
def isCfsFile (n : Name) : Bool :=
  match splitLast 46 n with
  | some (_, ext) =>
    (indexExts.contains ext && ext != [100, 101, 108] && ext != [103, 101, 110] && ext != [99, 102, 115])
      || (ext.head? == some 102 && digit1 ext)
  | none => false

/-- Remove the generation count, index.c 3772–3775: at the last underscore after the first
character. (With nothing before the dot, the C code would search what follows the dot; the segment
name is empty all the same.) -/
def dropGen (stem : Name) : Name :=
  match stem with
  | [] => []
  | c :: cs => match splitLast 95 cs with
    | some (a, _) => c :: a
    | none => c :: cs

/-- atoi, from a digit on; beyond an int is undefined. -/
def atoi : Nat → Name → Res Nat
  | a, [] => .ok a
  | a, c :: cs =>
    if 48 ≤ c.toNat ∧ c.toNat ≤ 57 then
      (if a * 10 + (c.toNat - 48) < 2 ^ 31 then atoi (a * 10 + (c.toNat - 48)) cs else .ub)
    else .ok a

/-- si_norm_file_name, index.c 670–681; `none` is NULL. -/
def normFileName (si : SI) (field : Nat) : Res (Option Name) :=
  match si.normGens[field]? with
  | none => .ok none
  | some g =>
    if g < 0 then .ok none
    else fnForGenField si.name (if si.compound = true ∧ g > 0 then [115] else [102]) g field

/-- The table of current segments, index.c 3841–3845: the last of equal names wins. -/
def current (segs : List SI) (n : Name) : Option SI := segs.reverse.find? (fun si => si.name == n)

/-- deleter_find_deletable_files_i for a file of a current segment, index.c 3784–3814.
A missing extension is dereferenced at 3791. If there are no norms for the field the buffer
compared with at 3806 is uninitialised: undefined. -/
def orphaned (si : SI) (file seg : Name) (ext : Option Name) : Res Bool :=
  if isCfsFile file = true ∧ si.compound = true then .ok true
  else match ext with
    | none => .ub
    | some ext =>
      if ext = [100, 101, 108] then
        fnForGeneration seg (some [100, 101, 108]) si.delGen >>= fun t => .ok (t != some file)
      else if (ext.head? = some 115 ∨ ext.head? = some 102) ∧ digit1 ext = true then
        atoi 0 ext.tail >>= fun f => normFileName si f >>= fun t =>
        match t with
        | none => .ub
        | some t => .ok (t != file)
      else .ok (ext == [99, 102, 115] && !si.compound)

/-- deleter_find_deletable_files_i, index.c 3745–3821: is the file queued? The name is copied to a
buffer of SEGMENT_NAME_MAX_LENGTH. -/
def deletable (segs : List SI) (curr file : Name) : Res Bool :=
  if isIndexFile file = true ∧ file ≠ curr ∧ file ≠ segmentsFile then
    if file.length < nameMax then
      let (stem, ext) := match splitLast 46 file with
        | some (a, b) => (a, some b)
        | none => (file, none)
      match current segs (dropGen stem) with
      | none => .ok true
      | some si => orphaned si file (dropGen stem) ext
    else .ub
  else .ok false

/-- The enumeration at index.c 3852. -/
def queueAll (segs : List SI) (curr : Name) : List Name → Res (List Name)
  | [] => .ok []
  | n :: ns => deletable segs curr n >>= fun b => queueAll segs curr ns >>= fun r => .ok (if b then n :: r else r)

/-- deleter_find_deletable_files, index.c 3830–3854, on the names the store enumerates;
sis_curr_seg_file_name 803–807. -/
def findDeletable (s : SIS) (names : List Name) : Res (List Name) :=
  currentGeneration (-1) names >>= fun g => segfn (toU 8 g) >>= fun curr => queueAll s.segs curr names

/-- deleter_delete_deletable_files, index.c 3856–3860, with deleter_commit_pending_deletions and
deleter_delete_file 3708–3728. A file system store enumerates what begins with a character above
'/' and is not a lock (fs_store.c 128–133); the names here are all of that kind. -/
def deleteDeletable (s : SIS) (d : Disk) : Res Disk :=
  findDeletable s d.names >>= fun l => .ok (l.foldl (fun d n => d.apply (.del n)) d)

end Ferret.Dlr
