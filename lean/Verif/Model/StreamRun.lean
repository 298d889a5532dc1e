import Verif.Model.Stream
import Verif.Spec.Stream

/-! Clients of the streams: histories of files, and typed values. -/

namespace Ferret.Store
open Ferret.Spec

/-- One operation of a client on an output stream (store.c 108–180). -/
def doOut (junk : Byte) (o : OutS) : OutOp → Res OutS
  | .byte b => osWriteByte junk o b
  | .bytes s => osWriteBytes junk o s
  | .seek p => osSeek junk o p
  | .flush => osFlush junk o

def doOuts (junk : Byte) : OutS → List OutOp → Res OutS
  | o, [] => .ok o
  | o, op :: ops => doOut junk o op >>= fun o => doOuts junk o ops

/-- ram_new_output, ram_store.c 278–292, and fs_new_output, fs_store.c 270–285, of a file that may
exist: neither truncates it. The stream starts at offset 0. -/
def newOutput (f : OutFile) : OutS := ⟨[], 0, seekI f 0⟩

/-- os_close, store.c 115–120, leaves the file. -/
def osClose (junk : Byte) (o : OutS) : Res OutFile := osFlush junk o >>= fun o => .ok o.file

def doSessions (junk : Byte) : OutFile → List (List OutOp) → Res OutFile
  | f, [] => .ok f
  | f, ops :: rest => doOuts junk (newOutput f) ops >>= fun o => osClose junk o >>= fun f => doSessions junk f rest

/-- Opening for input what was written: ram_open_input 349–375, fs_open_input 335–. -/
def openInput : OutFile → InS
  | .ram rf _ => isOpen (.ram rf 0)
  | .fs data _ => isOpen (.fs data)

/-- One command on a family of streams (store.c 241–305); `is_clone`, store.c 299–305, copies the
structure. -/
def doIn (ss : List InS) (c : InCmd) : Res (InObs × List InS) :=
  match c with
  | .byte i => Res.ofOption ss[i]? >>= fun s => isReadByteSt s >>= fun r =>
      .ok ((match r.1 with | some b => InObs.byte b | none => .eof), ss.set i r.2)
  | .bytes i n => Res.ofOption ss[i]? >>= fun s => isReadBytes s n >>= fun r => .ok (.bytes r.1, ss.set i r.2)
  | .seek i p => Res.ofOption ss[i]? >>= fun s => .ok (.done, ss.set i (isSeek s p))
  | .pos i => Res.ofOption ss[i]? >>= fun s => .ok (.pos (isPos s), ss)
  | .clone i => Res.ofOption ss[i]? >>= fun s => .ok (.done, ss ++ [s])

def doIns : List InS → List InCmd → Res (List InObs)
  | _, [] => .ok []
  | ss, c :: cs => doIn ss c >>= fun r => doIns r.2 cs >>= fun os => .ok (r.1 :: os)

/-- Writing a value: store.c 147–605. -/
def writeVal (junk : Byte) (o : OutS) : Val → Res OutS
  | .byte b => osWriteByte junk o b
  | .u32 n => osWriteU junk 4 o n
  | .u64 n => osWriteU junk 8 o n
  | .i32 x => osWriteI junk 4 o x
  | .i64 x => osWriteI junk 8 o x
  | .vint n => osWriteV junk o n
  | .voff x => osWriteVoff junk o x
  | .vll n => osWriteV junk o n
  | .str s => osWriteString junk o s
  | .block s => osWriteBytes junk o s

def writeVals (junk : Byte) : OutS → List Val → Res OutS
  | o, [] => .ok o
  | o, v :: vs => writeVal junk o v >>= fun o => writeVals junk o vs

/-- Reading a value of a given type: store.c 241–478. -/
def readVal (s : InS) : Kind → Res (Val × InS)
  | .byte => isReadByte s >>= fun r => .ok (.byte r.1, r.2)
  | .u32 => isReadU 4 0 s >>= fun r => .ok (.u32 r.1, r.2)
  | .u64 => isReadU 8 0 s >>= fun r => .ok (.u64 r.1, r.2)
  | .i32 => isReadI 4 s >>= fun r => .ok (.i32 r.1, r.2)
  | .i64 => isReadI 8 s >>= fun r => .ok (.i64 r.1, r.2)
  | .vint => isReadV 32 s >>= fun r => .ok (.vint r.1, r.2)
  | .voff => isReadV 64 s >>= fun r => .ok (.voff (toS 8 r.1), r.2)
  | .vll => isReadV 64 s >>= fun r => .ok (.vll r.1, r.2)
  | .str => isReadString s >>= fun r => .ok (.str r.1, r.2)
  | .block n => isReadBytes s n >>= fun r => .ok (.block r.1, r.2)

def readVals : InS → List Kind → Res (List Val)
  | _, [] => .ok []
  | s, k :: ks => readVal s k >>= fun r => readVals r.2 ks >>= fun vs => .ok (r.1 :: vs)

end Ferret.Store
