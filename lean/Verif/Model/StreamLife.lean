import Verif.Model.Basic
import Verif.Spec.StreamLife

/-!
The life of input streams: is_new, is_close, is_clone (c/src/store.c 188–195, 290–305), the close_i of streams over files on
disk, in memory and in a compound file (c/src/fs_store.c 312–318, ram_store.c 335–340, compound_io.c 117–120), cmpd_create_input
and cmpd_close_i (compound_io.c 150–163, 85–98), as a reader, its lazily loaded documents and its enumerators use them (c/src/index.c
1475–1492, 1533–1551, 4439–4455). Reading is reading from the file: what may still be in a stream's buffer is not modelled. A freed stream or
counter is not used again by the allocator here, so that using it is seen. One thread.
-/

namespace Ferret.StreamLife
open Ferret Ferret.Spec

/-- What copies of a stream share: the counter (store.c 193, 294), for a file within a compound file the stream of that
(`cis->sub`, compound_io.c 155), and how often close_i was called. The counter is freed when it was. -/
structure Group where
  cnt : Int := 0
  sub : Option Nat := none
  closed : Nat := 0
  deriving DecidableEq

/-- Memory: the streams (`none` when freed) and what they share. -/
structure St where
  handles : List (Option Nat) := []
  groups : List Group := []
  deriving DecidableEq

/-- A stream and what it shares, unless freed. -/
def look (st : St) (h : Nat) : Res (Nat × Group) :=
  match st.handles[h]? with
  | some (some g) =>
    match st.groups[g]? with
    | some G => if G.closed = 0 then .ok (g, G) else .ub
    | none => .ub
  | _ => .ub

/-- is_close, store.c 290–297. -/
def isClose (st : St) (h : Nat) : Res St :=
  look st h >>= fun x =>
    let n := x.2.cnt - 1
    .ok { handles := st.handles.set h none, groups := st.groups.set x.1 (if n < 0 then { x.2 with cnt := n, closed := x.2.closed + 1 } else { x.2 with cnt := n }) }

/-- is_clone, store.c 299–305. -/
def isClone (st : St) (h : Nat) : Res St :=
  look st h >>= fun x => .ok { handles := st.handles ++ [some x.1], groups := st.groups.set x.1 { x.2 with cnt := x.2.cnt + 1 } }

/-- open_input of a store on disk or in memory, with is_new, store.c 188–195. -/
def openFile (st : St) : St := { handles := st.handles ++ [some st.groups.length], groups := st.groups ++ [{}] }

/-- cmpd_create_input, compound_io.c 150–163. -/
def openMember (st : St) (s : Nat) : Res St :=
  look st s >>= fun _ => .ok { handles := st.handles ++ [some st.groups.length], groups := st.groups ++ [{ sub := some s }] }

/-- read_i: fsi_read_i, rami_read_i, and cmpdi_read_i (compound_io.c 127–141), which reads from the stream below. -/
def isRead (st : St) (h : Nat) : Res St :=
  look st h >>= fun x =>
    match x.2.sub with
    | none => .ok st
    | some s => look st s >>= fun y => if y.2.sub = none then .ok st else .ub

def step (st : St) : StreamOp → Res St
  | .openFile => .ok (openFile st)
  | .member s => openMember st s
  | .copy h => isClone st h
  | .close h => isClose st h
  | .read h => isRead st h

def run (st : St) : List StreamOp → Res St
  | [] => .ok st
  | op :: ops => step st op >>= fun st' => run st' ops

/-- A reader of a segment that is not packed, and documents loaded lazily: fr_open (the field data), lazy_doc_new (index.c
1482) `n` times, fr_close (1549), reading each document (lazy_df_get_data, 1390–1408). -/
def lazyPlain (n : Nat) : List StreamOp :=
  [.openFile] ++ List.replicate n (.copy 0) ++ [.close 0] ++ (List.range n).map fun i => .read (i + 1)

/-- The same of a segment packed into a compound file: open_cmpd_store, the field data within it; sr_close_i closes the field data
(index.c 4443), then the compound file (4450, compound_io.c 94). -/
def lazyPacked (n : Nat) : List StreamOp :=
  [.openFile, .member 0] ++ List.replicate n (.copy 1) ++ [.close 1, .close 0] ++ (List.range n).map fun i => .read (i + 2)

end Ferret.StreamLife
