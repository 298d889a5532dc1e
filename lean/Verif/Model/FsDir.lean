import Verif.Model.Deleter
import Verif.Spec.Dir

/-!
Model of the store on disk: c/src/fs_store.c 38–350, all but the streams' buffers (C09) and the locks (C11).

The operating system is a table from path names to files. Two paths name the same file only if they are the same string: no links, and no
`.` or `..` in paths. Of the errors of the operating system, there are: a file that does not exist, and paths that it refuses
to open or create (`deny`); removing and renaming fail only for files that do not exist. readdir gives the names of the
directory at the time of opendir, in some order, and without `.` and `..`, which every loop here skips (their first byte is under '/',
and they are no locks). Descriptors are numbered by their kind in the order in which they are opened; `fd0` says that the
descriptor 0 is free when a file is touched.
-/

namespace Ferret.FsDir
open Ferret.Spec (Name DOp DObs isLockName)
open Ferret.Dlr

/-- A path name. -/
abbrev Path := List Byte

structure OS where
  /-- contents of the files ever created -/
  files : List (List Byte)
  /-- which file a path stands for -/
  paths : List (Path × Nat)
  outs : List (Option (Nat × Nat))
  ins : List (Option Nat)
  /-- paths that cannot be opened or created -/
  deny : Path → Bool
  /-- the descriptor 0 is free -/
  fd0 : Bool

/-- MAX_FILE_PATH, global.h 18. -/
def maxPath : Nat := 1024

/-- join_path, fs_store.c 38–45: snprintf writes maxPath - 1 bytes at most. -/
def joinPath (base name : Name) : Path := (base ++ 47 :: name).take (maxPath - 1)

/-- The file at a path. -/
def OS.find (s : OS) (p : Path) : Option Nat := (s.paths.find? (fun x => x.1 == p)).map (·.2)

/-- remove(3): 0, or -1 when there is no such file. -/
def OS.remove (s : OS) (p : Path) : Int × OS :=
  (if (s.find p).isSome then 0 else -1, { s with paths := s.paths.filter (fun x => !(x.1 == p)) })

/-- A new file at a path. -/
def OS.create (s : OS) (p : Path) : OS := { s with files := s.files ++ [[]], paths := (p, s.files.length) :: s.paths }

/-- creat(2): a new file, or the old one without its content; false when it fails. -/
def OS.creat (s : OS) (p : Path) : Bool × OS :=
  if s.deny p then (false, s)
  else match s.find p with
    | some i => (true, { s with files := s.files.set i [] })
    | none => (true, s.create p)

/-- The name of a path in a directory, none for other paths. -/
def nameIn (dir : Path) (p : Path) : Option Name :=
  if (dir ++ [47]).isPrefixOf p then
    let n := p.drop (dir.length + 1)
    if n = [] ∨ n.contains 47 then none else some n
  else none

/-- readdir(3), until there are no more. -/
def OS.list (s : OS) (dir : Path) : List Name := s.paths.filterMap (fun x => nameIn dir x.1)

/-- fs_touch, fs_store.c 47–57: IO_ERROR is raised when creat gives 0; -1, an error, is closed. -/
def touch (s : OS) (dir : Path) (n : Name) : DObs × OS :=
  let r := s.creat (joinPath dir n)
  if r.1 && s.fd0 then (.error, r.2) else (.unit, r.2)

/-- fs_exists, fs_store.c 59–74. -/
def exist (s : OS) (dir : Path) (n : Name) : DObs :=
  let p := joinPath dir n
  if s.deny p then .error else .bool (s.find p).isSome

/-- fs_remove, fs_store.c 76–80: what it returns. -/
def remove (s : OS) (dir : Path) (n : Name) : Int × OS := s.remove (joinPath dir n)

/-- fs_rename, fs_store.c 82–95. rename(2) replaces a file at `b`; of a path to itself it does nothing, and neither is
there another mapping here. -/
def rename (s : OS) (dir : Path) (a b : Name) : DObs × OS :=
  match s.find (joinPath dir a) with
  | none => (.error, s)
  | some i =>
    let rest := (s.paths.filter (fun x => !(x.1 == joinPath dir a))).filter (fun x => !(x.1 == joinPath dir b))
    (.unit, { s with paths := (joinPath dir b, i) :: rest })

/-- The first byte is above '/' as a `char`, which is signed: fs_store.c 109. -/
def shown (n : Name) : Bool := n.head?.any (fun b => 47 < b.toNat && b.toNat < 128)

/-- fs_count, fs_store.c 97–116. -/
def count (s : OS) (dir : Path) : Nat := ((s.list dir).filter shown).length

/-- fs_each, fs_store.c 118–136: the names that are given. -/
def each (s : OS) (dir : Path) : List Name := (s.list dir).filter (fun n => shown n && !isLockName n)

/-- fs_clear_locks, fs_store.c 138–155. -/
def clearLocks (s : OS) (dir : Path) : OS := ((s.list dir).filter isLockName).foldl (fun s n => (s.remove (joinPath dir n)).2) s

/-- "lck" -/
def lckWord : Name := [108, 99, 107]

/-- "ferret" -/
def ferretWord : Name := [102, 101, 114, 114, 101, 116]

/-- file_name_filter_is_index_file with include_locks, index.c 3631–3655. -/
def isIndexOrLock (n : Name) : Bool :=
  isIndexFile n || match splitLast 46 n with
    | some (_, ext) => ext == lckWord && ferretWord.isPrefixOf n
    | none => false

/-- strrchr of '/': the part of a path after the last one, fs_store.c 163–164. -/
def baseName (p : Path) : Name :=
  match splitLast 47 p with
  | some (_, n) => n
  | none => p

/-- remove_if_index_file, fs_store.c 157–169. -/
def removeIfIndex (dir : Path) (s : OS) (n : Name) : OS :=
  let p := joinPath dir n
  if isIndexOrLock (baseName p) then (s.remove p).2 else s

/-- fs_clear, fs_store.c 171–188. -/
def clear (s : OS) (dir : Path) : OS := ((s.list dir).filter (fun n => shown n && !isLockName n)).foldl (removeIfIndex dir) s

/-- fs_clear_all, fs_store.c 194–210. -/
def clearAll (s : OS) (dir : Path) : OS := ((s.list dir).filter shown).foldl (removeIfIndex dir) s

/-- fs_length, fs_store.c 229–240. -/
def length (s : OS) (dir : Path) (n : Name) : Res DObs :=
  match s.find (joinPath dir n) with
  | none => .ok .error
  | some i => Res.ofOption s.files[i]? >>= fun f => .ok (.num f.length)

/-- fs_new_output, fs_store.c 270–286: the file is not cut. -/
def openOut (s : OS) (dir : Path) (n : Name) : DObs × OS :=
  let p := joinPath dir n
  if s.deny p then (.error, s)
  else match s.find p with
    | some i => (.num s.outs.length, { s with outs := s.outs ++ [some (i, 0)] })
    | none => let s' := s.create p
      (.num s.outs.length, { s' with outs := s.outs ++ [some (s.files.length, 0)] })

/-- write(2): what is between the end of the file and the position is zeros. -/
def writeFile (f : List Byte) (p : Nat) (bs : List Byte) : List Byte :=
  writeAt (f ++ List.replicate (p - f.length) 0) p bs

/-- Writing and flushing, fso_flush_i, fs_store.c 241–247. -/
def write (s : OS) (h : Nat) (bs : List Byte) : Res OS :=
  match s.outs[h]? with
  | some (some (i, p)) =>
    Res.ofOption s.files[i]? >>= fun f =>
      .ok { s with files := s.files.set i (writeFile f p bs), outs := s.outs.set h (some (i, p + bs.length)) }
  | _ => .ub

/-- os_close with fso_close_i, fs_store.c 257–262. -/
def closeOut (s : OS) (h : Nat) : Res OS :=
  match s.outs[h]? with
  | some (some _) => .ok { s with outs := s.outs.set h none }
  | _ => .ub

/-- fs_open_input, fs_store.c 335–350. -/
def openIn (s : OS) (dir : Path) (n : Name) : DObs × OS :=
  let p := joinPath dir n
  if s.deny p then (.error, s)
  else match s.find p with
    | none => (.error, s)
    | some i => (.num s.ins.length, { s with ins := s.ins ++ [some i] })

/-- Reading, fsi_read_i, fs_store.c 287–301: IO_ERROR is raised when there are not as many bytes. -/
def read (s : OS) (h pos len : Nat) : Res DObs :=
  match s.ins[h]? with
  | some (some i) => Res.ofOption s.files[i]? >>= fun f => .ok (if pos + len ≤ f.length then .bytes (slice f pos len) else .error)
  | _ => .ub

/-- is_close with fsi_close_i, fs_store.c 311–317. -/
def closeIn (s : OS) (h : Nat) : Res OS :=
  match s.ins[h]? with
  | some (some _) => .ok { s with ins := s.ins.set h none }
  | _ => .ub

/-- One call of the interface. Removing is observed as whether a file was removed. -/
def doOp (dir : Path) (s : OS) : DOp → Res (DObs × OS)
  | .touch n => .ok (touch s dir n)
  | .exist n => .ok (exist s dir n, s)
  | .remove n => .ok (.bool ((remove s dir n).1 == 0), (remove s dir n).2)
  | .rename a b => .ok (rename s dir a b)
  | .count => .ok (.num (count s dir), s)
  | .length n => length s dir n >>= fun o => .ok (o, s)
  | .openOut n => .ok (openOut s dir n)
  | .write h bs => write s h bs >>= fun s => .ok (.unit, s)
  | .closeOut h => closeOut s h >>= fun s => .ok (.unit, s)
  | .openIn n => .ok (openIn s dir n)
  | .read h pos len => read s h pos len >>= fun o => .ok (o, s)
  | .closeIn h => closeIn s h >>= fun s => .ok (.unit, s)
  | .clear => .ok (.unit, clear s dir)
  | .clearLocks => .ok (.unit, clearLocks s dir)
  | .clearAll => .ok (.unit, clearAll s dir)

/-- A sequence of calls. -/
def doOps (dir : Path) (s : OS) : List DOp → Res (List DObs × OS)
  | [] => .ok ([], s)
  | op :: ops => doOp dir s op >>= fun r => doOps dir r.2 ops >>= fun r' => .ok (r.1 :: r'.1, r'.2)

/-- fs_destroy, fs_store.c 218–226, on the directory: closing the last reference to a store clears its locks. -/
def destroy (s : OS) (dir : Path) : OS := clearLocks s dir

end Ferret.FsDir
