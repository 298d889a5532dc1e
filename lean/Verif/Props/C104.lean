import Verif.Lemmas.StreamLife

/-!
# C104: copies of streams, and what is loaded lazily after a reader is closed
-/

namespace Ferret.Props
open Ferret Ferret.Spec Ferret.StreamLife

/-- However streams are opened, copied, read and closed, if no client uses a stream it closed, and the stream of a compound file is
closed after those of the files in it: every operation works, and each opened file is closed once when all its streams are, and
not before. Missing: the order between a compound file and its members is not kept by readers, see `c104_packed_lazy`. -/
theorem c104_streams_partial (ops : List StreamOp) (sp : Streams) (h : streamsRun true {} ops = some sp) :
    ∃ st, run {} ops = .ok st ∧ st.groups.length = sp.subs.length ∧
      ∀ (f : Nat) (G : Group), st.groups[f]? = some G → ((f, true) ∈ sp.hs → G.closed = 0) ∧ ((f, true) ∉ sp.hs → G.closed = 1) := by
  obtain ⟨st, a, b⟩ := run_inv ops inv_empty h
  refine ⟨st, a, b.len, ?_⟩
  intro f G hG
  obtain ⟨-, c, -⟩ := b.grp f G hG
  refine ⟨fun hm => by rw [c, if_neg (users_pos hm)], fun hm => ?_⟩
  have : sp.users f = 0 := by
    unfold Streams.users
    apply List.countP_eq_zero.2
    intro x hx
    simp only [decide_eq_true_eq]
    rintro rfl
    exact hm hx
  rw [c, if_pos this]

/-- With files that are not in a compound file, no order has to be kept. -/
theorem c104_plain_files (ops : List StreamOp) (hm : ∀ s, StreamOp.member s ∉ ops) (sp : Streams) (h : streamsRun false {} ops = some sp) :
    ∃ st, run {} ops = .ok st ∧
      ∀ (f : Nat) (G : Group), st.groups[f]? = some G → ((f, true) ∈ sp.hs → G.closed = 0) ∧ ((f, true) ∉ sp.hs → G.closed = 1) := by
  obtain ⟨st, a, -, b⟩ := c104_streams_partial ops sp (run_noParts ops (by intro s hs; cases hs) hm h)
  exact ⟨st, a, b⟩

/-- Of a segment that is not packed, any number of documents loaded lazily can be read after the reader is closed. -/
theorem c104_plain_lazy (n : Nat) : ∃ st, run {} (lazyPlain n) = .ok st := by
  obtain ⟨st, a, -⟩ := c104_streams_partial _ _ (lazyPlain_spec true n)
  exact ⟨st, a⟩

/-- Of a packed segment they cannot, however many there are: their streams read through that of the compound file, which the reader freed, although
the client used nothing it had closed. -/
theorem c104_packed_lazy (n : Nat) (hn : 0 < n) : (streamsRun false {} (lazyPacked n)).isSome = true ∧ run {} (lazyPacked n) = .ub := by
  obtain ⟨m, rfl⟩ : ∃ m, n = m + 1 := ⟨n - 1, by omega⟩
  exact ⟨packed_allowed _, packed_ub m⟩

/-- Streams of two files, one with a packed member; all closed in the order required, copies outliving what they were copied from. -/
example : ∃ st, run {} [.openFile, .member 0, .copy 1, .openFile, .copy 3, .close 1, .read 2, .close 3, .read 4, .close 2, .close 0] = .ok st ∧
    st.groups.map (·.closed) = [1, 1, 0] := ⟨_, rfl, by decide⟩

example : (streamsRun true {} [.openFile, .member 0, .copy 1, .openFile, .copy 3, .close 1, .read 2, .close 3, .read 4, .close 2, .close 0]).isSome = true := by decide

example : (streamsRun false {} [.openFile, .copy 0, .copy 1, .close 1, .read 2, .close 0, .read 2, .close 2]).isSome = true := by decide

#print axioms c104_streams_partial
#print axioms c104_plain_files
#print axioms c104_plain_lazy
#print axioms c104_packed_lazy
end Ferret.Props
