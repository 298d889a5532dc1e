import Verif.Model.SegmentInfos

/-!
Finding the segments file while another process commits (c/src/index.c 832–1006): the same loop as in Model/SegmentInfos, but
every access of the directory sees it as it is then. A round of the loop accesses the directory five times: it lists the names,
it reads the file "segments", it reads the segments file of the generation, it asks for the one before and reads that.
`look t` is the directory at access `t`; accesses a round does not make see nothing.

Simplifications. A segments file is read at one moment (it is only appended to, so a reader that takes its time sees no other
bytes, at most more of them). Sleeping is letting others go on, which `look` may do at any access.
-/

namespace Ferret.Sis
open Ferret Ferret.Spec Ferret.Names

/-- Which generation is tried next, index.c 853–938: names from one directory, the file "segments" from another. -/
def genLive (d1 d2 : Disk) (s : Find) : Res Find :=
  (if s.method = 0 then
    currentGeneration (-1) d1.names >>= fun g => if g = -1 then .raise .fileNotFound else .ok { s with gen := g }
   else .ok s) >>= fun s =>
  let s := if s.method = 1 ∨ (s.method = 0 ∧ s.lastGen = s.gen ∧ s.retry = true) then { s with method := 1, gen := genFile d2 s.gen } else s
  let s := if s.method = 2 ∨ (s.method = 1 ∧ s.lastGen = s.gen ∧ s.retry = true) then
      (if s.ahead < 10 then { s with method := 2, gen := s.gen + 1, ahead := s.ahead + 1 } else { s with method := 2 })
    else s
  (if s.lastGen = s.gen then (if s.retry then .raise .io else .ok { s with retry := true }) else .ok { s with retry := false }) >>= fun s =>
  .ok { s with lastGen := s.gen }

/-- The trial of that generation and of the one before, index.c 940–1004: three accesses. -/
def tryLive {α : Type} (run : Disk → Int → Res α) (d3 d4 d5 : Disk) (s : Find) : Res (Option α) :=
  match run d3 s.gen with
  | .ok x => .ok (some x)
  | .ub => .ub
  | .raise e =>
    if handled e then
      if s.retry = false ∧ s.gen > 1 then
        segfn (toU 8 (s.gen - 1)) >>= fun prev =>
        if (d4.get prev).isSome then
          match run d5 (s.gen - 1) with
          | .ok x => .ok (some x)
          | .ub => .ub
          | .raise e => if handled e then .ok none else .raise e
        else .ok none
      else .ok none
    else .raise e

/-- One round, index.c 852–1005, beginning with access `t`: `none` is to go on. -/
def roundLive {α : Type} (run : Disk → Int → Res α) (look : Nat → Disk) (t : Nat) (s : Find) : Res (Option α × Find) :=
  genLive (look t) (look (t + 1)) s >>= fun s => tryLive run (look (t + 2)) (look (t + 3)) (look (t + 4)) s >>= fun r => .ok (r, s)

/-- At most so many rounds: `none` if the search still goes on then, otherwise how it ended and at which access the last
round began. -/
def findLive {α : Type} (run : Disk → Int → Res α) (look : Nat → Disk) : Nat → Nat → Find → Option (Res α × Nat)
  | 0, _, _ => none
  | n + 1, t, s =>
    match roundLive run look t s with
    | .ok (some x, _) => some (.ok x, t)
    | .ok (none, s) => findLive run look n (t + 5) s
    | .raise e => some (.raise e, t)
    | .ub => some (.ub, t)

/-- The variables at the beginning, index.c 835–840. -/
def findStart : Find := ⟨0, -1, false, 0, 0⟩

/-- What a writer does for one commit: it writes and removes other files, writes the segments file with sis_write (index.c
1129–1167), and writes and removes other files again. -/
structure Round where
  pre : List DiskEv
  new : SIS
  post : List DiskEv

/-- The events of some commits one after the other. -/
def writerEvents : List Round → Res (List DiskEv)
  | [] => .ok []
  | r :: rs => sisWrite r.new true >>= fun e => writerEvents rs >>= fun es => .ok (r.pre ++ (e ++ (r.post ++ es)))

end Ferret.Sis
