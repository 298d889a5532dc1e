import Verif.Model.FindLive
import Verif.Lemmas.Disk

/-!
A directory while commits are made, as far as a reader can see: which commits are there.
-/

namespace Ferret.Spec
open Ferret Ferret.Sis Ferret.Names Ferret.Fis

/-- Where a writer is: commit `g` is the only one there; the segments file of `g + 1` is being written; commit `g` is whole and
the one before it may still be there. -/
inductive Stage where
  | idle (g : Nat)
  | writing (g : Nat)
  | wrote (g : Nat)
  deriving DecidableEq, Repr

/-- The newest whole commit. -/
def Stage.newest : Stage → Nat
  | .idle g => g
  | .writing g => g
  | .wrote g => g

/-- The largest generation with a file. -/
def Stage.top : Stage → Nat
  | .idle g => g
  | .writing g => g + 1
  | .wrote g => g

/-- The smallest generation that may have a file. -/
def Stage.low : Stage → Nat
  | .idle g => g
  | .writing g => g
  | .wrote g => g - 1

/-- How far the writer has come. -/
def Stage.rank : Stage → Nat
  | .idle g => 3 * g
  | .writing g => 3 * g + 1
  | .wrote g => 3 * g - 1

/-- Commit `s` is there and whole. -/
def hasCommit (d : Disk) (s : SIS) : Prop := ∃ n junk, segfn (toU 8 s.generation) = .ok n ∧ d.get n = some (sisBytes s ++ junk)

/-- The beginning of commit `s` is there; it is not cut within the first bytes of the field infos (`c17_stop_crashes_reader`). -/
def hasPart (d : Disk) (s : SIS) : Prop :=
  ∃ n k, segfn (toU 8 s.generation) = .ok n ∧ d.get n = some ((sisBytes s).take k) ∧ k < (sisBytes s).length ∧
    ¬ (fisOffset s ≤ k ∧ k < fisOffset s + headLen s.fis)

/-- The directory shows the stage; `c g` is the commit of generation `g`. -/
structure Shows (c : Nat → SIS) (d : Disk) (st : Stage) : Prop where
  whole : hasCommit d (c st.newest)
  part : ∀ g, st = .writing g → hasPart d (c (g + 1))
  old : ∀ g n, st = .wrote (g + 1) → segfn g = .ok n → d.get n = none ∨ hasCommit d (c g)
  names : ∀ n ∈ d.names, isSeg n = true → ∃ g, st.low ≤ g ∧ g ≤ st.top ∧ segfn g = .ok n

/-- Commits that can be written and read. -/
def commitsFit (c : Nat → SIS) (st : Stage) : Prop := st.top < 2 ^ 63 - 1 ∧ ∀ g, st.low ≤ g → g ≤ st.top → (c g).generation = g ∧ SisFits (c g)

/-- The events of one commit. -/
def _root_.Ferret.Sis.Round.total (r : Round) : Nat := r.pre.length + (match sisWrite r.new true with | .ok e => e.length | _ => 0) + r.post.length

/-- The events until the segments file of the commit is whole: other files, the file created, its bytes. -/
def _root_.Ferret.Sis.Round.untilWhole (r : Round) : Nat := r.pre.length + ((sisBytes (committed r.new)).length + 1)

/-- How many commits are whole after `k` events. -/
def finished : List Round → Nat → Nat
  | [], _ => 0
  | r :: rs, k => if k < r.untilWhole then 0 else 1 + finished rs (k - r.total)

/-- The commits: the one at the beginning, then those the writer makes. -/
def commitNo (s0 : SIS) (rs : List Round) : Nat → SIS
  | 0 => s0
  | i + 1 => match rs[i]? with
    | some r => committed r.new
    | none => s0

/-- The stage after `k` events. -/
def stageAt (g : Nat) : List Round → Nat → Stage
  | [], _ => .idle g
  | r :: rs, k =>
    if k ≤ r.pre.length then .idle g
    else if k < r.untilWhole then .writing g
    else if k < r.total then .wrote (g + 1)
    else stageAt (g + 1) rs (k - r.total)

end Ferret.Spec
