import Verif.Model.RamDir
import Verif.Model.FsDir

/-!
Copying a store into memory (ram_store.c): copy_files 443–461 and open_ram_store_and_copy 463–477, which a
RAMDirectory made from another directory uses (ruby/ext/r_store.c 300–328), from a store in memory
(Model/RamDir) or on disk (Model/FsDir).

Simplified: the names are listed first and copied then (`each` calls the function for a name when it comes to it: the copying does
not change the names of the store that is copied); the length of the stream that was opened is that of the file of the name,
which is the file that was opened; MEM_ERROR is `Err.exception`. Not modelled: `close_dir`, with which
the store that is copied is closed afterwards (C90, C92), and a store that lies in a compound file, which cannot list its names.
-/

namespace Ferret.CopyStore
open Ferret Ferret.Spec

/-- A store that is copied: the names it passes to the function given to `each` (store.h), and its calls. -/
structure Source (σ : Type) where
  each : σ → Res (List Name)
  doOp : σ → DOp → Res (DObs × σ)

/-- A store in memory, open_ram_store, ram_store.c 411–441: ram_each 98–112 and the other calls. -/
def ramSource : Source RamDir.Dir := ⟨RamDir.each, RamDir.doOp⟩

/-- A store on disk, fs_store_new, fs_store.c 418–453: fs_each 118–136 and the other calls. -/
def diskSource (dir : Name) : Source FsDir.OS := ⟨fun s => .ok (FsDir.each s dir), FsDir.doOp dir⟩

/-- `(int)is_length(is)`, ram_store.c 452. -/
def intLen (n : Nat) : Int := (BitVec.ofNat 32 n).toInt

/-- The bytes that `buffer` is made for, `ALLOC_N(uchar, len + 1)`, ram_store.c 453, with emalloc, lang.c 12–21: `len + 1`
overflows for the largest length; a negative number of bytes is a size that malloc refuses; for −1 nothing is allocated and
os_write_bytes gets a negative length. -/
def bufferFor (len : Int) : Res Nat :=
  if len = 2147483647 ∨ len = -1 then .ub
  else if len < 0 then .raise .exception
  else .ok len.toNat

/-- copy_files, ram_store.c 448–461: the stores afterwards, the one copied and the one in memory. -/
def copyFile {σ : Type} (src : Source σ) (st : σ × RamDir.Dir) (n : Name) : Res (σ × RamDir.Dir) :=
  RamDir.doOp st.2 (.openOut n) >>= fun o =>
  src.doOp st.1 (.openIn n) >>= fun i =>
  match o.1, i.1 with
  | .num ho, .num hi =>
    src.doOp i.2 (.length n) >>= fun l =>
    match l.1 with
    | .num len =>
      bufferFor (intLen len) >>= fun k =>
      src.doOp l.2 (.read hi 0 k) >>= fun r =>
      match r.1 with
      | .bytes bs =>
        RamDir.doOp o.2 (.write ho bs) >>= fun w =>
        src.doOp r.2 (.closeIn hi) >>= fun c =>
        RamDir.doOp w.2 (.closeOut ho) >>= fun z => .ok (c.2, z.2)
      | _ => .raise .io
    | _ => .raise .io
  | _, .error => .raise .fileNotFound
  | _, _ => .ub

/-- The calls of copy_files for the names listed. -/
def copyNames {σ : Type} (src : Source σ) : List Name → σ × RamDir.Dir → Res (σ × RamDir.Dir)
  | [], st => .ok st
  | n :: l, st => copyFile src st n >>= fun st => copyNames src l st

/-- open_ram_store_and_copy, ram_store.c 463–477. -/
def openAndCopy {σ : Type} (src : Source σ) (s : σ) : Res (σ × RamDir.Dir) :=
  src.each s >>= fun l => copyNames src l (s, RamDir.new)

end Ferret.CopyStore
