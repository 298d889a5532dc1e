import Verif.Lemmas.SharedFile

/-!
C101: threads reading the same file through streams of their own each read what is in it.

A thread is given by the descriptor its stream uses, where its file begins in what the descriptor
reads and how long it is, and its commands.
-/

namespace Ferret.Props
open Ferret Ferret.Spec Ferret.SharedFile

/-- Files in memory, and files on disk opened by every thread for itself (none of the streams is a
clone): under every schedule, what a thread has seen at any time is what it would have seen alone,
no read fails, and it is done after three steps for each command. -/
theorem c101_own_streams_partial (kind : Kind) (junk : Byte) (file : List Byte) (ts : List (Nat × Nat × Nat × List RCmd))
    (hin : ∀ x ∈ ts, x.2.1 + x.2.2.1 ≤ file.length) (hown : kind = .mem ∨ (ts.map (·.1)).Nodup)
    (sched : List Nat) (i fd base len : Nat) (cmds : List RCmd) (hi : ts[i]? = some (fd, base, len, cmds)) :
    ∃ t, (run kind junk file (begin ts) sched).2[i]? = some t ∧ t.failed = false ∧
      (∃ k, t.obs = alone ((file.drop base).take len) 0 (cmds.take k)) ∧
      (3 * cmds.length ≤ sched.count i → t.obs = alone ((file.drop base).take len) 0 cmds) := by
  have h0 := begin_inv kind file ts hin
  have h := run_inv (junk := junk) hown sched h0
  have hlt := (List.getElem?_eq_some_iff.1 hi).1
  have ht : (run kind junk file (begin ts) sched).2[i]? = some ((run kind junk file (begin ts) sched).2[i]'(by rw [h.len]; exact hlt)) := List.getElem?_eq_getElem _
  obtain ⟨g1, g2, g3, g4⟩ := h.thr i _ _ hi ht
  obtain ⟨d, d1, d2, d3⟩ := g1.done
  have ec : contentOf file ((run kind junk file (begin ts) sched).2[i]'(by rw [h.len]; exact hlt)) = (file.drop base).take len := by
    unfold contentOf; rw [g3, g4]
  rw [ec] at d2
  refine ⟨_, ht, g1.ok, ⟨d.length, ?_⟩, ?_⟩
  · rw [d2]
    congr 1
    show d = List.take d.length cmds
    have d1' : cmds = d ++ _ := d1
    rw [d1']
    simp
  · intro hc
    have hb : (begin ts).2[i]? = some { fd := fd, base := base, len := len, cmds := cmds } := by
      simp [begin, hi]
    have hl := run_left hown hi sched h0 hb ht
    have hz : left ((run kind junk file (begin ts) sched).2[i]'(by rw [h.len]; exact hlt)) = 0 := by
      have e : left { fd := fd, base := base, len := len, cmds := cmds } = 3 * cmds.length := rfl
      rw [e] at hl
      omega
    rw [left_zero hz, List.append_nil] at d1
    rw [d2]
    congr 1
    exact d1.symm

/-- Streams of any kind, clones and streams of one compound file too: if only whole commands take
turns, as when the program holds a lock around them, each of them gives what it gives alone. -/
theorem c101_whole_commands_partial (kind : Kind) (junk : Byte) (file : List Byte) (ts : List (Nat × Nat × Nat × List RCmd))
    (hin : ∀ x ∈ ts, x.2.1 + x.2.2.1 ≤ file.length)
    (sched : List Nat) (i fd base len : Nat) (cmds : List RCmd) (hi : ts[i]? = some (fd, base, len, cmds)) :
    ∃ t, (turns kind junk file (begin ts) sched).2[i]? = some t ∧ t.failed = false ∧
      t.obs = alone ((file.drop base).take len) 0 (cmds.take (sched.count i)) := by
  have h0 := begin_inv kind file ts hin
  have hT : TurnInv kind file ts (begin ts) (fun _ => 0) := by
    refine ⟨h0.len, ?_⟩
    intro j x t hx ht
    obtain ⟨a1, a2, a3, a4⟩ := h0.thr j x t hx ht
    simp only [begin, List.getElem?_map, hx, Option.map_some, Option.some.injEq] at ht
    subst ht
    exact ⟨a1, a3, a4, rfl, rfl⟩
  have h := turns_inv (junk := junk) sched hT
  have hlt := (List.getElem?_eq_some_iff.1 hi).1
  have ht : (turns kind junk file (begin ts) sched).2[i]? = some ((turns kind junk file (begin ts) sched).2[i]'(by rw [h.len]; exact hlt)) := List.getElem?_eq_getElem _
  obtain ⟨g1, g3, g4, g5, g6⟩ := h.thr i _ _ hi ht
  obtain ⟨d, d1, d2, d3⟩ := g1.done
  refine ⟨_, ht, g1.ok, ?_⟩
  have ec : contentOf file ((turns kind junk file (begin ts) sched).2[i]'(by rw [h.len]; exact hlt)) = (file.drop base).take len := by
    unfold contentOf; rw [g3, g4]
  rw [ec] at d2
  rw [d2]
  congr 1
  have d1' : cmds = d ++ _ := d1
  rw [g6] at d1'
  have d2' : d ++ cmds.drop (0 + sched.count i) = cmds.take (sched.count i) ++ cmds.drop (sched.count i) := by
    rw [List.take_append_drop]; exact d1'.symm
  rw [Nat.zero_add] at d2'
  exact List.append_cancel_right d2'

/-- Three threads, each with a descriptor of its own, and a schedule that stops the first within a
read. -/
example : (run .fs 0 [10, 11, 12, 13, 14] (begin [(3, 0, 5, [.byte, .byte]), (4, 0, 5, [.seek 3, .byte]), (5, 0, 5, [.byte])]) [0, 1, 1, 2, 1, 1, 0, 0, 2]).2.map (·.obs) =
    [[.byte 10, .byte 11], [.done, .byte 13], [.byte 10]] := by decide +kernel
example : [(3, 0, 5, [RCmd.byte, .byte]), (4, 0, 5, [.seek 3, .byte]), (5, 0, 5, [.byte])].map (·.1) = [3, 4, 5] ∧ [3, 4, 5].Nodup := by decide

/-- Two streams of one compound file, taking turns. -/
example : (turns .cmpd 0 [10, 11, 12, 13, 14] (begin [(3, 0, 2, [.byte, .byte, .byte]), (3, 2, 3, [.seek 1, .byte])]) [0, 1, 0, 1, 0]).2.map (·.obs) =
    [[.byte 10, .byte 11, .eof], [.done, .byte 13]] := by decide +kernel

/-- A file on disk read through a stream and its clone: the first thread asks for the offset and
finds it right, the second seeks, the first reads. It is given the byte the second one asked for,
then a byte which was in its buffer before, and no error is raised. -/
theorem c101_clone_race :
    (run .fs 99 [10, 11, 12, 13, 14] (begin [(3, 0, 5, [.byte, .byte, .byte]), (3, 0, 5, [.seek 3, .byte])]) [0, 1, 0, 0, 0]).2.map (fun t => (t.obs, t.failed)) =
      [([.byte 13, .byte 14, .byte 99], false), ([.done], false)] ∧
    alone [10, 11, 12, 13, 14] 0 [.byte, .byte, .byte] = [.byte 10, .byte 11, .byte 12] := by decide +kernel

/-- Two files of a compound file, each read by one thread: the first seeks in the stream they
share, the second seeks, the first reads. It is given a byte of the other file. -/
theorem c101_compound_race :
    (run .cmpd 0 [10, 11, 12, 13, 14] (begin [(3, 0, 2, [.byte]), (3, 2, 3, [.byte])]) [0, 1, 0]).2.map (fun t => (t.obs, t.failed)) =
      [([.byte 12], false), ([], false)] ∧
    alone ((([10, 11, 12, 13, 14] : List Byte).drop 0).take 2) 0 [.byte] = [.byte 10] := by decide +kernel

/-- The same, and the second then fails with an IO error although nothing is wrong with the file. -/
theorem c101_compound_race_error :
    (run .cmpd 0 [10, 11, 12, 13, 14] (begin [(3, 0, 2, [.byte]), (3, 2, 3, [.byte])]) [0, 1, 0, 1]).2.map (fun t => (t.obs, t.failed)) =
      [([.byte 12], false), ([], true)] := by decide +kernel

#print axioms c101_own_streams_partial
#print axioms c101_whole_commands_partial
#print axioms c101_clone_race
#print axioms c101_compound_race
#print axioms c101_compound_race_error
end Ferret.Props
