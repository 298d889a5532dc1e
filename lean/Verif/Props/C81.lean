import Verif.Lemmas.FindLive
import Verif.Props.C17

/-!
C81: opening an index while another process commits.
-/

namespace Ferret.Props
open Ferret Ferret.Spec Ferret.Sis Ferret.Names

theorem commitNo_writes {s0 : SIS} {rs : List Round} {g0 : Nat} (h0 : s0.generation = g0)
    (hgen : ∀ i r, rs[i]? = some r → r.new.generation = ((g0 + i : Nat) : Int))
    (hother : ∀ r ∈ rs, noSeg r.pre ∧ noSeg r.post) (hroom : g0 + rs.length < 2 ^ 63 - 1) :
    Writes (fun g => commitNo s0 rs (g - g0)) g0 rs := by
  refine ⟨by simpa [commitNo] using h0, ?_, hother, hroom⟩
  intro i r hr
  refine ⟨hgen i r hr, ?_⟩
  simp only [show g0 + i + 1 - g0 = i + 1 by omega, commitNo, hr]

/-- **C81, partial.** The directory holds the commit `s0` of generation 1 or more. A writer makes the commits `rs` one after the
other; `e t` of its events have happened when a reader accesses the directory for the `t`-th time, whatever `e` is. Then the
reader, searching for the segments file and reading it, gets a commit and no error, and the commit is one that was the newest
whole one at some moment of the round of the search that found it; or the search still goes on after `n` rounds, and half of
them have been overtaken by a commit.

Missing: generation 0 (`c81_first_commit_unreadable`), and accesses while a segments file is cut within the first bytes of the
field infos (`c81_reader_crashes`), each a witness that the property fails there. -/
theorem c81_open_while_committing_partial (s0 : SIS) (rs : List Round) (g0 : Nat) (evs : List DiskEv) (d0 : Disk) (e : Nat → Nat) (n : Nat)
    (h0 : s0.generation = g0) (hone : 1 ≤ g0) (hroom : g0 + rs.length < 2 ^ 63 - 1)
    (hhas : hasCommit d0 s0) (honly : ∀ n ∈ d0.names, isSeg n = true → segfn g0 = .ok n)
    (hfit0 : SisFits s0) (hfit : ∀ r ∈ rs, SisFits (committed r.new))
    (hgen : ∀ i r, rs[i]? = some r → r.new.generation = ((g0 + i : Nat) : Int))
    (hother : ∀ r ∈ rs, ∀ ev ∈ r.pre ++ r.post, isSeg ev.name = false)
    (hevs : writerEvents rs = .ok evs) (he : ∀ t t', t ≤ t' → e t ≤ e t')
    (hcut : ∀ t i m b, i ≤ rs.length → segfn (g0 + i) = .ok m → (d0.applyAll (evs.take (e t))).get m = some b →
      ¬ (fisOffset (commitNo s0 rs i) ≤ b.length ∧ b.length < fisOffset (commitNo s0 rs i) + Fis.headLen (commitNo s0 rs i).fis)) :
    (∃ i t, findLive sisReadI (fun t => d0.applyAll (evs.take (e t))) n 0 findStart = some (.ok (commitNo s0 rs i), t) ∧
      finished rs (e t) ≤ i ∧ i ≤ finished rs (e (t + 4))) ∨
    (findLive sisReadI (fun t => d0.applyAll (evs.take (e t))) n 0 findStart = none ∧
      n ≤ 2 * (finished rs (e (5 * n)) - finished rs (e 0)) + 1) := by
  have hw : Writes (fun g => commitNo s0 rs (g - g0)) g0 rs := commitNo_writes h0 hgen
    (fun r hr => ⟨fun ev hev => hother r hr ev (by simp [hev]), fun ev hev => hother r hr ev (by simp [hev])⟩) hroom
  have hstart : Shows (fun g => commitNo s0 rs (g - g0)) d0 (.idle g0) := by
    refine ⟨?_, fun g hg => (by cases hg), fun g n hg => (by cases hg), fun n hn hs => ⟨g0, Nat.le_refl _, Nat.le_refl _, honly n hn hs⟩⟩
    simpa [Stage.newest, commitNo] using hhas
  have hcut' : ∀ t, noCut (fun g => commitNo s0 rs (g - g0)) g0 (g0 + rs.length) (d0.applyAll (evs.take (e t))) := by
    intro t g m b hg hg' hm hb
    exact hcut t (g - g0) m b (by omega) (by rw [show g0 + (g - g0) = g by omega]; exact hm) hb
  have hfitc : ∀ g, g0 ≤ g → g ≤ g0 + rs.length → (commitNo s0 rs (g - g0)).generation = g ∧ SisFits (commitNo s0 rs (g - g0)) := by
    intro g h1 h2
    obtain ⟨i, rfl⟩ : ∃ i, g = g0 + i := ⟨g - g0, by omega⟩
    rw [show g0 + i - g0 = i by omega]
    cases i with
    | zero => exact ⟨h0, hfit0⟩
    | succ i =>
      have hi : i < rs.length := by omega
      have hr : rs[i]? = some rs[i] := List.getElem?_eq_getElem hi
      simp only [commitNo, hr]
      refine ⟨?_, hfit _ (List.getElem_mem hi)⟩
      have := hgen i _ hr
      show rs[i].new.generation + 1 = _
      omega
  have hlaw : Lawful sisReadI (fun g => commitNo s0 rs (g - g0)) (fun t => d0.applyAll (evs.take (e t))) (fun t => stageAt g0 rs (e t)) := by
    have hnew : ∀ t, 1 ≤ (stageAt g0 rs (e t)).newest := fun t => by rw [stageAt_newest]; omega
    refine ⟨fun t => ?_, hnew, fun t t' ht => stageAt_mono rs g0 _ _ (he t t' ht), fun t => ?_⟩
    · have hb := stageAt_bounds rs g0 (e t)
      refine (writer_shows rs d0 g0 (e t) evs (Nat.le_refl _) (Nat.le_refl _) hw hevs hstart (hcut' t)).reads ⟨by omega, fun g h1 h2 => hfitc g (by omega) (by omega)⟩ (hnew t)
    · have hb := stageAt_bounds rs g0 (e t)
      show (stageAt g0 rs (e t)).top < _
      omega
  have hb0 : Between (stageAt g0 rs (e 0)) findStart := ⟨rfl, rfl, Or.inl ⟨rfl, rfl⟩⟩
  cases n with
  | zero => exact Or.inr ⟨rfl, by omega⟩
  | succ n =>
    rcases roundLive_next hlaw 0 findStart hb0 with ⟨g, s', hr, h1, h2⟩ | ⟨s', hr, h1, -, h3⟩
    · left
      simp only [stageAt_newest] at h1 h2
      exact ⟨g - g0, 0, by simp only [findLive, hr], by omega, by simp only [Nat.zero_add] at h2 ⊢; omega⟩
    · rcases findLive_next hlaw n 5 s' h1 with ⟨g, t', hg, -, h4, h5⟩ | ⟨hg, h4⟩
      · left
        simp only [stageAt_newest] at h4 h5
        exact ⟨g - g0, t', by simp only [findLive, hr, Nat.zero_add, hg], by omega, by omega⟩
      · right
        refine ⟨by simp only [findLive, hr, Nat.zero_add, hg], ?_⟩
        cases n with
        | zero => omega
        | succ n =>
          have h4 := h4 (by omega)
          simp only [stageAt_newest] at h3 h4
          rw [show 5 + 5 * (n + 1) = 5 * (n + 1 + 1) by omega] at h4
          unfold Find.far at h4
          have : (0 : Int) ≤ if s'.retry = true then 1 else 0 := by split <;> omega
          omega

/-- A search is overtaken only by commits: with so many rounds it ends, with a commit, if the writer makes no more than `rs`. -/
theorem c81_ends (s0 : SIS) (rs : List Round) (g0 : Nat) (evs : List DiskEv) (d0 : Disk) (e : Nat → Nat)
    (h0 : s0.generation = g0) (hone : 1 ≤ g0) (hroom : g0 + rs.length < 2 ^ 63 - 1)
    (hhas : hasCommit d0 s0) (honly : ∀ n ∈ d0.names, isSeg n = true → segfn g0 = .ok n)
    (hfit0 : SisFits s0) (hfit : ∀ r ∈ rs, SisFits (committed r.new))
    (hgen : ∀ i r, rs[i]? = some r → r.new.generation = ((g0 + i : Nat) : Int))
    (hother : ∀ r ∈ rs, ∀ ev ∈ r.pre ++ r.post, isSeg ev.name = false)
    (hevs : writerEvents rs = .ok evs) (he : ∀ t t', t ≤ t' → e t ≤ e t')
    (hcut : ∀ t i m b, i ≤ rs.length → segfn (g0 + i) = .ok m → (d0.applyAll (evs.take (e t))).get m = some b →
      ¬ (fisOffset (commitNo s0 rs i) ≤ b.length ∧ b.length < fisOffset (commitNo s0 rs i) + Fis.headLen (commitNo s0 rs i).fis)) :
    ∃ i t, findLive sisReadI (fun t => d0.applyAll (evs.take (e t))) (2 * rs.length + 2) 0 findStart = some (.ok (commitNo s0 rs i), t) ∧
      finished rs (e t) ≤ i ∧ i ≤ finished rs (e (t + 4)) := by
  rcases c81_open_while_committing_partial s0 rs g0 evs d0 e (2 * rs.length + 2) h0 hone hroom hhas honly hfit0 hfit hgen hother hevs he hcut with h | h
  · exact h
  · have := finished_le rs (e (5 * (2 * rs.length + 2)))
    omega

/-- Whatever a directory holds, if it does not change the search ends within 16 rounds; the bound of 64 in `findSegments` is
never the reason for what it gives. -/
theorem c81_still_ends {α : Type} (run : Disk → Int → Res α) (d : Disk) :
    ∃ r t, findLive run (fun _ => d) 64 0 findStart = some (r, t) ∧ findSegments d (run d) = r := by
  cases h : findLive run (fun _ => d) 64 0 findStart with
  | none => exact absurd h (findLive_ends run d 64 0 0 findStart Still.start (by omega))
  | some p =>
    obtain ⟨r, t⟩ := p
    exact ⟨r, t, rfl, findLive_still run d 64 0 t findStart r h⟩

/-! ### A writer and a reader -/

/-- One commit, with a data file written before and one removed after. -/
def oneRound : List Round := [⟨[.create [95, 49, 46, 116], .put [95, 49, 46, 116] 0 1], addedSis 2, [.del [95, 48, 46, 99, 102, 115]]⟩]

def oneEvents : List DiskEv := match writerEvents oneRound with | .ok e => e | _ => []

/-- The reader lists the directory and tries the new segments file while it is being written; before it asks for the old one,
that is gone. -/
def oneSchedule (t : Nat) : Nat := if t < 3 then 25 else 1000

/-- What the reader sees at those moments: nothing is cut where it must not be. -/
theorem oneCut (t i : Nat) (m : Name) (b : List Byte) (hi : i ≤ oneRound.length) (h1 : segfn (2 + i) = .ok m) (h2 : (disk2.applyAll (oneEvents.take (oneSchedule t))).get m = some b) :
    ¬ (fisOffset (commitNo (oldSis 2) oneRound i) ≤ b.length ∧
      b.length < fisOffset (commitNo (oldSis 2) oneRound i) + Fis.headLen (commitNo (oldSis 2) oneRound i).fis) := by
  have key : ∀ d : Disk, (∀ p ∈ d, (p.1 = segName 50 → p.2.length = 36) ∧ (p.1 = segName 51 → p.2.length = 22 ∨ p.2.length = 44) ∧
      (isSeg p.1 = true → p.1 = segName 50 ∨ p.1 = segName 51)) → d.get m = some b →
      ¬ (fisOffset (commitNo (oldSis 2) oneRound i) ≤ b.length ∧
        b.length < fisOffset (commitNo (oldSis 2) oneRound i) + Fis.headLen (commitNo (oldSis 2) oneRound i).fis) := by
    intro d hd hg
    simp only [oneRound, List.length_cons, List.length_nil] at hi
    simp only [Disk.get, Option.map_eq_some_iff] at hg
    obtain ⟨p, hp, rfl⟩ := hg
    have hpm := List.find?_some hp
    simp only [beq_iff_eq] at hpm
    have hp' := hd p (List.mem_of_find?_eq_some hp)
    have hseg : isSeg m = true := segfn_isSeg (by omega) h1
    have n2 : segfn 2 = .ok (segName 50) := by decide +kernel
    have n3 : segfn 3 = .ok (segName 51) := by decide +kernel
    rw [hpm] at hp'
    rcases hp'.2.2 hseg with e | e
    · rw [e] at h1 hp'
      have := segfn_inj (by omega) (by omega) h1 n2
      have : i = 0 := by omega
      subst this
      rw [hp'.1 rfl]
      decide +kernel
    · rw [e] at h1 hp'
      have := segfn_inj (by omega) (by omega) h1 n3
      have : i = 1 := by omega
      subst this
      rcases hp'.2.1 rfl with hl | hl
      · rw [hl]; decide +kernel
      · rw [hl]; decide +kernel
  have hcase : oneSchedule t = 25 ∨ oneSchedule t = 1000 := by unfold oneSchedule; split <;> simp
  rcases hcase with e | e
  · rw [e] at h2
    exact key _ (by decide +kernel) h2
  · rw [e] at h2
    exact key _ (by decide +kernel) h2

/-- The hypotheses of the theorems are met. -/
example : (oldSis 2).generation = ((2 : Nat) : Int) ∧ hasCommit disk2 (oldSis 2) ∧ (∀ n ∈ disk2.names, isSeg n = true → segfn 2 = .ok n) ∧
    SisFits (oldSis 2) ∧ (∀ r ∈ oneRound, SisFits (committed r.new)) ∧
    (∀ i r, oneRound[i]? = some r → r.new.generation = ((2 + i : Nat) : Int)) ∧
    (∀ r ∈ oneRound, ∀ ev ∈ r.pre ++ r.post, isSeg ev.name = false) ∧
    writerEvents oneRound = .ok oneEvents ∧ (∀ t t', t ≤ t' → oneSchedule t ≤ oneSchedule t') := by
  refine ⟨rfl, ⟨segName 50, [], by decide +kernel, by decide +kernel⟩, ?_, oldSis_holds.fits, ?_, ?_, ?_, by decide +kernel, ?_⟩
  · intro n hn hs
    simp only [disk2, Disk.names, List.map_cons, List.map_nil, List.mem_cons, List.not_mem_nil, or_false] at hn
    rcases hn with rfl | rfl
    · exact absurd hs (by decide)
    · decide +kernel
  · intro r hr
    simp only [oneRound, List.mem_cons, List.not_mem_nil, or_false] at hr
    subst hr
    refine ⟨by decide, by decide, rfl, by decide, ?_, ⟨by decide, by decide, by decide⟩, ⟨by decide, by decide, by decide, by decide, by decide⟩⟩
    intro si hsi
    simp only [committed, addedSis, List.mem_cons, List.not_mem_nil, or_false] at hsi
    rcases hsi with rfl | rfl <;> exact ⟨by decide, by decide, by decide, by decide, by decide⟩
  · intro i r hr
    cases i with
    | zero => simp only [oneRound, List.getElem?_cons_zero, Option.some.injEq] at hr; subst hr; rfl
    | succ i => simp [oneRound] at hr
  · decide
  · intro t t' h
    unfold oneSchedule
    split <;> split <;> omega

/-- The reader is overtaken once, and finds the new commit in the second round. -/
example : findLive sisReadI (fun t => disk2.applyAll (oneEvents.take (oneSchedule t))) 4 0 findStart = some (.ok (committed (addedSis 2)), 5) := by
  decide +kernel

/-! ### Witnesses -/

/-- While the commit after the one that created the index is written, the index cannot be opened, although the first commit is
there and whole: it is never tried. -/
theorem c81_first_commit_unreadable :
    hasCommit (disk0.applyAll ((commitEvs (addedSis 0)).take 20)) (oldSis 0) ∧
    (findLive sisReadI (fun _ => disk0.applyAll ((commitEvs (addedSis 0)).take 20)) 64 0 findStart).map (·.1) = some (.raise .io) :=
  ⟨⟨segName 48, [], by decide +kernel, by decide +kernel⟩, by decide +kernel⟩

/-- A reader that opens the index just before the field infos are written crashes. -/
theorem c81_reader_crashes : ∃ k t, findLive sisReadI (fun _ => disk2.applyAll ((commitEvs (addedSis 2)).take k)) 64 0 findStart = some (.ub, t) :=
  ⟨1 + fisOffset (addedSis 2), 0, by decide +kernel⟩

/-- While a commit is written the current version of the index is already that of the commit, which may never be finished: a
reader of the newest commit there is is told that it is not the latest, and opening the index gives it that commit again. -/
theorem c81_version_of_unfinished :
    sisRead (disk2.applyAll ((commitEvs (addedSis 2)).take 15)) = .ok (oldSis 2) ∧
    readCurrentVersion (disk2.applyAll ((commitEvs (addedSis 2)).take 15)) = .ok 8 ∧ (oldSis 2).version = 7 := by
  decide +kernel

#print axioms c81_open_while_committing_partial
#print axioms c81_ends
#print axioms c81_still_ends
#print axioms c81_first_commit_unreadable
#print axioms c81_reader_crashes
#print axioms c81_version_of_unfinished
end Ferret.Props
