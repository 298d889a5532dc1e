import Verif.Model.SharedFile

namespace Ferret.SharedFile
open Ferret Ferret.Spec

def alonePos (content : List Byte) : Nat → List RCmd → Nat
  | p, [] => p
  | p, c :: cs => alonePos content (aloneStep content p c).2 cs

theorem alone_append (c : List Byte) : ∀ (a b : List RCmd) (p : Nat), alone c p (a ++ b) = alone c p a ++ alone c (alonePos c p a) b := by
  intro a
  induction a with
  | nil => intro b p; rfl
  | cons x a ih => intro b p; simp only [List.cons_append, alone, alonePos, ih]

theorem alonePos_append (c : List Byte) : ∀ (a b : List RCmd) (p : Nat), alonePos c p (a ++ b) = alonePos c (alonePos c p a) b := by
  intro a
  induction a with
  | nil => intro b p; rfl
  | cons x a ih => intro b p; simp only [List.cons_append, alonePos, ih]

/-- The bytes of a thread's file. -/
def contentOf (file : List Byte) (t : Thr) : List Byte := (file.drop t.base).take t.len

structure TInv (kind : Kind) (file : List Byte) (prog : List RCmd) (t : Thr) (o : Nat) : Prop where
  within : t.base + t.len ≤ file.length
  ok : t.failed = false
  done : ∃ d, prog = d ++ t.cmds ∧ t.obs = alone (contentOf file t) 0 d ∧ alonePos (contentOf file t) 0 d = t.start + t.pos
  buf : t.buf = ((contentOf file t).drop t.start).take t.buf.length
  told : ∀ q, t.pc = .told q → q = o
  ready : t.pc = .ready → o = t.base + t.start + t.pos
  busy : t.pc ≠ .idle → kind ≠ .mem ∧ (∃ cs, t.cmds = .byte :: cs) ∧ t.start + t.pos < t.len

theorem content_length {file : List Byte} {t : Thr} (h : t.base + t.len ≤ file.length) : (contentOf file t).length = t.len := by
  unfold contentOf
  rw [List.length_take, List.length_drop]
  omega

theorem block_eq {file : List Byte} {t : Thr} (h : t.base + t.len ≤ file.length) (hlt : t.start + t.pos < t.len) :
    (file.drop (t.base + t.start + t.pos)).take (blockLen t) = ((contentOf file t).drop (t.start + t.pos)).take (blockLen t) ∧
    ((file.drop (t.base + t.start + t.pos)).take (blockLen t)).length = blockLen t ∧ 0 < blockLen t := by
  have hb : blockLen t ≤ t.len - (t.start + t.pos) := Nat.min_le_right _ _
  have hb' : 0 < blockLen t := by unfold blockLen; omega
  refine ⟨?_, ?_, hb'⟩
  · unfold contentOf
    rw [List.drop_take, List.take_take, List.drop_drop, Nat.min_eq_left hb, Nat.add_assoc]
  · rw [List.length_take, List.length_drop]
    omega

theorem deliver_inv {kind : Kind} {file : List Byte} {prog : List RCmd} {t : Thr} {o o' : Nat} (h : TInv kind file prog t o) {cs : List RCmd} (hc : t.cmds = .byte :: cs)
    (hlt : t.start + t.pos < t.len) :
    TInv kind file prog (deliver t ((file.drop (t.base + t.start + t.pos)).take (blockLen t))) o' ∧
    (deliver t ((file.drop (t.base + t.start + t.pos)).take (blockLen t))).pc = .idle ∧
    (deliver t ((file.drop (t.base + t.start + t.pos)).take (blockLen t))).cmds = cs ∧
    (deliver t ((file.drop (t.base + t.start + t.pos)).take (blockLen t))).fd = t.fd := by
  obtain ⟨e1, e2, e3⟩ := block_eq h.within hlt
  obtain ⟨d, d1, d2, d3⟩ := h.done
  cases hd : (file.drop (t.base + t.start + t.pos)).take (blockLen t) with
  | nil => rw [hd] at e2; simp at e2; omega
  | cons b rest =>
    rw [hd] at e1 e2
    have hb : (contentOf file t)[t.start + t.pos]? = some b := by
      have : (((contentOf file t).drop (t.start + t.pos)).take (blockLen t))[0]? = some b := by rw [← e1]; rfl
      rw [List.getElem?_take_of_lt e3, List.getElem?_drop] at this
      simpa using this
    refine ⟨⟨h.within, h.ok, ⟨d ++ [.byte], ?_, ?_, ?_⟩, ?_, (by intro q hq; cases hq), (by intro hq; cases hq), by intro hq; exact absurd rfl hq⟩, rfl, by simp [deliver, hc], rfl⟩
    · simp [deliver, hc, d1]
    · show t.obs ++ [.byte b] = _
      show t.obs ++ [.byte b] = alone (contentOf file t) 0 (d ++ [.byte])
      rw [alone_append, d2, d3]
      simp [alone, aloneStep, hb]
    · show alonePos (contentOf file t) 0 (d ++ [.byte]) = _
      rw [alonePos_append, d3]
      simp [alonePos, aloneStep, hb, deliver]
    · show b :: rest = ((contentOf file t).drop (t.start + t.pos)).take (b :: rest).length
      rw [e2]
      exact e1

theorem doRead_inv {kind : Kind} {junk : Byte} {file : List Byte} {prog : List RCmd} {t : Thr} {o : Nat} (h : TInv kind file prog t o) {cs : List RCmd} (hc : t.cmds = .byte :: cs)
    (hlt : t.start + t.pos < t.len) (ho : o = t.base + t.start + t.pos) :
    TInv kind file prog (doRead kind junk file t o).1 (doRead kind junk file t o).2 ∧ (doRead kind junk file t o).1.pc = .idle ∧
    (doRead kind junk file t o).1.cmds = cs ∧ (doRead kind junk file t o).1.fd = t.fd := by
  obtain ⟨e1, e2, e3⟩ := block_eq h.within hlt
  subst ho
  unfold doRead
  simp only [e2, true_or, if_true, Nat.sub_self, List.replicate_zero, List.append_nil]
  exact deliver_inv h hc hlt

/-- How far a thread is. -/
def rank : Pc → Nat
  | .idle => 0
  | .told _ => 1
  | .ready => 2

def left (t : Thr) : Nat := 3 * t.cmds.length - rank t.pc

theorem tstep_inv {kind : Kind} {junk : Byte} {file : List Byte} {prog : List RCmd} {t : Thr} {o : Nat} (h : TInv kind file prog t o) :
    TInv kind file prog (tstep kind junk file t o).1 (tstep kind junk file t o).2 ∧ (tstep kind junk file t o).1.fd = t.fd ∧
    left (tstep kind junk file t o).1 ≤ left t - 1 ∧
    (t.cmds = [] → (tstep kind junk file t o).1.cmds = []) ∧
    ((tstep kind junk file t o).1.pc = .idle → (tstep kind junk file t o).1.cmds = t.cmds.tail) ∧
    ((tstep kind junk file t o).1.pc ≠ .idle → (tstep kind junk file t o).1.cmds = t.cmds ∧ rank t.pc < rank (tstep kind junk file t o).1.pc) := by
  unfold tstep
  rw [if_neg (by rw [h.ok]; decide)]
  cases hpc : t.pc with
  | told q =>
    dsimp only
    obtain ⟨hk, ⟨cs, hc⟩, hlt⟩ := h.busy (by rw [hpc]; intro e; cases e)
    have hq := h.told q hpc
    split
    · rename_i heq
      obtain ⟨h1, h2, h3, h4⟩ := doRead_inv (junk := junk) h hc hlt (by rw [← hq]; exact heq)
      refine ⟨h1, h4, ?_, by simp [hc], fun _ => by rw [h3, hc]; rfl, fun hn => absurd h2 hn⟩
      unfold left
      rw [h2, h3, hpc, hc]
      simp only [rank, List.length_cons]
      omega
    · refine ⟨⟨h.within, h.ok, h.done, h.buf, (by intro q hq; cases hq), fun _ => rfl, fun _ => ⟨hk, ⟨cs, hc⟩, hlt⟩⟩, rfl, ?_, by simp [hc], (by intro hq; cases hq), fun _ => ⟨rfl, by simp [rank]⟩⟩
      simp only [left, rank, hpc]
      omega
  | ready =>
    dsimp only
    obtain ⟨hk, ⟨cs, hc⟩, hlt⟩ := h.busy (by rw [hpc]; intro e; cases e)
    obtain ⟨h1, h2, h3, h4⟩ := doRead_inv (junk := junk) h hc hlt (h.ready hpc)
    refine ⟨h1, h4, ?_, by simp [hc], fun _ => by rw [h3, hc]; rfl, fun hn => absurd h2 hn⟩
    unfold left
    rw [h2, h3, hpc, hc]
    simp only [rank, List.length_cons]
    omega
  | idle =>
    obtain ⟨d, d1, d2, d3⟩ := h.done
    cases hc : t.cmds with
    | nil =>
      dsimp only
      refine ⟨h, rfl, by simp [left, hc], fun _ => hc, fun _ => by rw [hc]; rfl, fun hn => absurd hpc hn⟩
    | cons c cs =>
      have hleft : left t = 3 * (cs.length + 1) := by simp [left, hc, hpc, rank]
      cases c with
      | seek p =>
        dsimp only
        split
        · rename_i hin
          refine ⟨⟨h.within, h.ok, ⟨d ++ [.seek p], by simp [d1, hc], ?_, ?_⟩, h.buf, (by intro q hq; cases hq),
            (by intro hq; cases hq), by intro hq; exact absurd rfl hq⟩, rfl, ?_, by simp, fun _ => rfl, fun hn => absurd rfl hn⟩
          · show t.obs ++ [.done] = alone (contentOf file t) 0 (d ++ [.seek p])
            rw [alone_append, d2]; rfl
          · show alonePos (contentOf file t) 0 (d ++ [.seek p]) = t.start + (p - t.start)
            rw [alonePos_append]
            simp only [alonePos, aloneStep]
            omega
          · rw [hleft]; simp only [left, hpc, rank]; omega
        · refine ⟨⟨h.within, h.ok, ⟨d ++ [.seek p], by simp [d1, hc], ?_, ?_⟩, by simp, (by intro q hq; cases hq),
            (by intro hq; cases hq), by intro hq; exact absurd rfl hq⟩, rfl, ?_, by simp, fun _ => rfl, fun hn => absurd rfl hn⟩
          · show t.obs ++ [.done] = alone (contentOf file t) 0 (d ++ [.seek p])
            rw [alone_append, d2]; rfl
          · show alonePos (contentOf file t) 0 (d ++ [.seek p]) = p + 0
            rw [alonePos_append]
            rfl
          · rw [hleft]; simp only [left, hpc, rank]; omega
      | byte =>
        dsimp only
        cases hb : t.buf[t.pos]? with
        | some b =>
          dsimp only
          have hc' : (contentOf file t)[t.start + t.pos]? = some b := by
            have hl : t.pos < t.buf.length := (List.getElem?_eq_some_iff.1 hb).1
            rw [h.buf, List.getElem?_take_of_lt hl, List.getElem?_drop] at hb
            exact hb
          refine ⟨⟨h.within, h.ok, ⟨d ++ [.byte], by simp [d1, hc], ?_, ?_⟩, h.buf, (by intro q hq; cases hq),
            (by intro hq; cases hq), by intro hq; exact absurd rfl hq⟩, rfl, ?_, by simp, fun _ => rfl, fun hn => absurd rfl hn⟩
          · show t.obs ++ [.byte b] = alone (contentOf file t) 0 (d ++ [.byte])
            rw [alone_append, d2, d3]
            simp [alone, aloneStep, hc']
          · show alonePos (contentOf file t) 0 (d ++ [.byte]) = t.start + (t.pos + 1)
            rw [alonePos_append, d3]
            simp [alonePos, aloneStep, hc', Nat.add_assoc]
          · rw [hleft]; simp only [left, hpc, rank]; omega
        | none =>
          dsimp only
          split
          · rename_i hge
            have hc' : (contentOf file t)[t.start + t.pos]? = none := List.getElem?_eq_none (by rw [content_length h.within]; exact hge)
            refine ⟨⟨h.within, h.ok, ⟨d ++ [.byte], by simp [d1, hc], ?_, ?_⟩, by simp, (by intro q hq; cases hq),
              (by intro hq; cases hq), by intro hq; exact absurd rfl hq⟩, rfl, ?_, by simp, fun _ => rfl, fun hn => absurd rfl hn⟩
            · show t.obs ++ [.eof] = alone (contentOf file t) 0 (d ++ [.byte])
              rw [alone_append, d2, d3]
              simp [alone, aloneStep, hc']
            · show alonePos (contentOf file t) 0 (d ++ [.byte]) = t.start + t.pos
              rw [alonePos_append, d3]
              simp [alonePos, aloneStep, hc']
            · rw [hleft]; simp only [left, hpc, rank]; omega
          · rename_i hge
            cases kind with
            | mem =>
              dsimp only
              obtain ⟨h1, h2, h3, h4⟩ := deliver_inv (o' := o) h hc (by omega)
              refine ⟨h1, h4, ?_, by simp, fun _ => h3, fun hn => absurd h2 hn⟩
              rw [hleft, left, h2, h3]
              simp only [rank]
              omega
            | fs =>
              dsimp only
              refine ⟨⟨h.within, h.ok, ⟨d, by rw [d1, hc], d2, d3⟩, h.buf, (by intro q hq; cases hq; rfl), (by intro hq; cases hq),
                fun _ => ⟨by decide, ⟨cs, rfl⟩, by show t.start + t.pos < t.len; omega⟩⟩, rfl, ?_, by simp, (by intro hq; cases hq), fun _ => ⟨rfl, by simp [rank]⟩⟩
              rw [hleft]; simp only [left, rank, List.length_cons]; omega
            | cmpd =>
              dsimp only
              refine ⟨⟨h.within, h.ok, ⟨d, by rw [d1, hc], d2, d3⟩, h.buf, (by intro q hq; cases hq), fun _ => rfl,
                fun _ => ⟨by decide, ⟨cs, rfl⟩, by show t.start + t.pos < t.len; omega⟩⟩, rfl, ?_, by simp, (by intro hq; cases hq), fun _ => ⟨rfl, by simp [rank]⟩⟩
              rw [hleft]; simp only [left, rank, List.length_cons]; omega

theorem deliver_same (t : Thr) (data : List Byte) : (deliver t data).fd = t.fd ∧ (deliver t data).base = t.base ∧ (deliver t data).len = t.len := by
  cases data <;> exact ⟨rfl, rfl, rfl⟩

theorem doRead_same (kind : Kind) (junk : Byte) (file : List Byte) (t : Thr) (o : Nat) :
    (doRead kind junk file t o).1.fd = t.fd ∧ (doRead kind junk file t o).1.base = t.base ∧ (doRead kind junk file t o).1.len = t.len := by
  unfold doRead
  dsimp only
  split
  · exact deliver_same _ _
  · exact ⟨rfl, rfl, rfl⟩

theorem tstep_same (kind : Kind) (junk : Byte) (file : List Byte) (t : Thr) (o : Nat) :
    (tstep kind junk file t o).1.fd = t.fd ∧ (tstep kind junk file t o).1.base = t.base ∧ (tstep kind junk file t o).1.len = t.len := by
  unfold tstep
  split
  · exact ⟨rfl, rfl, rfl⟩
  · split
    · split
      · exact doRead_same _ _ _ _ _
      · exact ⟨rfl, rfl, rfl⟩
    · exact doRead_same _ _ _ _ _
    · split
      · exact ⟨rfl, rfl, rfl⟩
      · split <;> exact ⟨rfl, rfl, rfl⟩
      · split
        · exact ⟨rfl, rfl, rfl⟩
        · split
          · exact ⟨rfl, rfl, rfl⟩
          · split
            · exact deliver_same _ _
            · exact ⟨rfl, rfl, rfl⟩
            · exact ⟨rfl, rfl, rfl⟩

/-- Not within a read, the offset does not matter. -/
theorem TInv.any {kind : Kind} {file : List Byte} {prog : List RCmd} {t : Thr} {o : Nat} (h : TInv kind file prog t o) (hi : t.pc = .idle) (o' : Nat) : TInv kind file prog t o' :=
  ⟨h.within, h.ok, h.done, h.buf, (by intro q hq; rw [hi] at hq; cases hq), (by intro hq; rw [hi] at hq; cases hq), h.busy⟩

abbrev Start := Nat × Nat × Nat × List RCmd

/-- A thread goes on as it began. -/
structure WInv (kind : Kind) (file : List Byte) (ts : List Start) (w : World) : Prop where
  len : w.2.length = ts.length
  thr : ∀ (i : Nat) (x : Start) (t : Thr), ts[i]? = some x → w.2[i]? = some t →
    TInv kind file x.2.2.2 t (w.1 t.fd) ∧ t.fd = x.1 ∧ t.base = x.2.1 ∧ t.len = x.2.2.1

theorem begin_inv (kind : Kind) (file : List Byte) (ts : List Start) (h : ∀ x ∈ ts, x.2.1 + x.2.2.1 ≤ file.length) : WInv kind file ts (begin ts) := by
  refine ⟨by simp [begin], ?_⟩
  intro i x t hx ht
  simp only [begin, List.getElem?_map, hx, Option.map_some, Option.some.injEq] at ht
  subst ht
  exact ⟨⟨h x (List.mem_of_getElem? hx), rfl, ⟨[], rfl, rfl, rfl⟩, rfl, (by intro q hq; cases hq), (by intro hq; cases hq), (by intro hq; exact absurd rfl hq)⟩, rfl, rfl, rfl⟩

/-- The step of one thread, for itself. -/
theorem wstep_self {kind : Kind} {junk : Byte} {file : List Byte} {w : World} {i : Nat} {t : Thr} (ht : w.2[i]? = some t) :
    (wstep kind junk file w i).2[i]? = some (tstep kind junk file t (w.1 t.fd)).1 ∧ (wstep kind junk file w i).1 t.fd = (tstep kind junk file t (w.1 t.fd)).2 := by
  unfold wstep
  rw [ht]
  dsimp only
  have hl := (List.getElem?_eq_some_iff.1 ht).1
  exact ⟨by rw [List.getElem?_set_self hl], if_pos rfl⟩

theorem wstep_other {kind : Kind} {junk : Byte} {file : List Byte} {w : World} {i j : Nat} (hij : i ≠ j) : (wstep kind junk file w i).2[j]? = w.2[j]? := by
  unfold wstep
  cases ht : w.2[i]? with
  | none => rfl
  | some t => exact List.getElem?_set_ne hij

theorem wstep_length {kind : Kind} {junk : Byte} {file : List Byte} {w : World} {i : Nat} : (wstep kind junk file w i).2.length = w.2.length := by
  unfold wstep
  cases ht : w.2[i]? with
  | none => rfl
  | some t => simp

theorem wstep_off {kind : Kind} {junk : Byte} {file : List Byte} {w : World} {i f : Nat} (h : ∀ t, w.2[i]? = some t → t.fd ≠ f) : (wstep kind junk file w i).1 f = w.1 f := by
  unfold wstep
  cases ht : w.2[i]? with
  | none => rfl
  | some t => exact if_neg (Ne.symm (h t ht))

theorem wstep_inv {kind : Kind} {junk : Byte} {file : List Byte} {ts : List Start} (hs : kind = .mem ∨ (ts.map (·.1)).Nodup) {w : World} (h : WInv kind file ts w) (i : Nat) :
    WInv kind file ts (wstep kind junk file w i) := by
  refine ⟨by rw [wstep_length, h.len], ?_⟩
  intro j x t hx ht
  by_cases hij : i = j
  · subst hij
    obtain ⟨t0, ht0⟩ : ∃ t0, w.2[i]? = some t0 := by
      have := (List.getElem?_eq_some_iff.1 hx).1
      rw [← h.len] at this
      exact ⟨_, List.getElem?_eq_getElem this⟩
    obtain ⟨g1, g2⟩ := wstep_self (kind := kind) (junk := junk) (file := file) ht0
    rw [g1] at ht
    cases ht
    obtain ⟨h1, h2, h3, h4⟩ := h.thr i x t0 hx ht0
    obtain ⟨s1, s2, s3⟩ := tstep_same kind junk file t0 (w.1 t0.fd)
    refine ⟨?_, by rw [s1]; exact h2, by rw [s2]; exact h3, by rw [s3]; exact h4⟩
    rw [s1, g2]
    exact (tstep_inv h1).1
  · rw [wstep_other hij] at ht
    obtain ⟨h1, h2, h3, h4⟩ := h.thr j x t hx ht
    refine ⟨?_, h2, h3, h4⟩
    rcases hs with hm | hn
    · refine h1.any ?_ _
      apply Classical.byContradiction
      intro hne
      exact (h1.busy hne).1 hm
    · rw [wstep_off]
      · exact h1
      · intro t0 ht0 hfd
        obtain ⟨x0, hx0⟩ : ∃ x0, ts[i]? = some x0 := by
          have := (List.getElem?_eq_some_iff.1 ht0).1
          rw [h.len] at this
          exact ⟨_, List.getElem?_eq_getElem this⟩
        have e0 := (h.thr i x0 t0 hx0 ht0).2.1
        have e : x0.1 = x.1 := by rw [← e0, ← h2, hfd]
        have hi := (List.getElem?_eq_some_iff.1 hx0).1
        have hj := (List.getElem?_eq_some_iff.1 hx).1
        have a1 : (ts.map (·.1))[i]? = some x0.1 := by rw [List.getElem?_map, hx0]; rfl
        have a2 : (ts.map (·.1))[j]? = some x.1 := by rw [List.getElem?_map, hx]; rfl
        rw [← e] at a2
        exact hij ((List.getElem?_inj (by rw [List.length_map]; exact hi) hn).1 (a1.trans a2.symm))

theorem run_inv {kind : Kind} {junk : Byte} {file : List Byte} {ts : List Start} (hs : kind = .mem ∨ (ts.map (·.1)).Nodup) : ∀ (sched : List Nat) {w : World}, WInv kind file ts w →
    WInv kind file ts (run kind junk file w sched) := by
  intro sched
  induction sched with
  | nil => intro w h; exact h
  | cons i sched ih => intro w h; exact ih (wstep_inv hs h i)

/-- Every step of a thread brings it nearer to the end. -/
theorem run_left {kind : Kind} {junk : Byte} {file : List Byte} {ts : List Start} (hs : kind = .mem ∨ (ts.map (·.1)).Nodup) {i : Nat} {x : Start} (hx : ts[i]? = some x) :
    ∀ (sched : List Nat) {w : World} {t t' : Thr}, WInv kind file ts w → w.2[i]? = some t → (run kind junk file w sched).2[i]? = some t' → left t' ≤ left t - sched.count i := by
  intro sched
  induction sched with
  | nil =>
    intro w t t' _ ht ht'
    have : some t = some t' := by rw [← ht, ← ht']; rfl
    cases this
    simp
  | cons j sched ih =>
    intro w t t' h ht ht'
    have ht'' : (run kind junk file (wstep kind junk file w j) sched).2[i]? = some t' := ht'
    by_cases hji : j = i
    · subst hji
      obtain ⟨g1, g2⟩ := wstep_self (kind := kind) (junk := junk) (file := file) ht
      have h1 := ih (wstep_inv hs h j) g1 ht''
      have h2 := (tstep_inv (junk := junk) (h.thr j x t hx ht).1).2.2.1
      rw [List.count_cons_self]
      omega
    · have h1 := ih (wstep_inv hs h j) (by rw [wstep_other hji]; exact ht) ht''
      rw [List.count_cons_of_ne hji]
      exact h1

theorem left_zero {t : Thr} (h : left t = 0) : t.cmds = [] := by
  unfold left at h
  have : rank t.pc ≤ 2 := by cases t.pc <;> simp [rank]
  cases hc : t.cmds with
  | nil => rfl
  | cons c cs => rw [hc, List.length_cons] at h; omega

/-! ### Whole commands -/

/-- All threads are between commands. -/
structure TurnInv (kind : Kind) (file : List Byte) (ts : List Start) (w : World) (n : Nat → Nat) : Prop where
  len : w.2.length = ts.length
  thr : ∀ (i : Nat) (x : Start) (t : Thr), ts[i]? = some x → w.2[i]? = some t →
    TInv kind file x.2.2.2 t (w.1 t.fd) ∧ t.base = x.2.1 ∧ t.len = x.2.2.1 ∧ t.pc = .idle ∧ t.cmds = x.2.2.2.drop (n i)

theorem busy_iff {kind : Kind} {file : List Byte} {prog : List RCmd} {w : World} {i : Nat} {t : Thr} {o : Nat} (ht : w.2[i]? = some t) (h : TInv kind file prog t o) :
    busy w i = true ↔ t.pc ≠ .idle := by
  unfold busy
  rw [ht]
  simp [h.ok]

/-- What is left of a turn: as many steps as it takes. -/
theorem turn_spec {kind : Kind} {junk : Byte} {file : List Byte} {prog : List RCmd} {w : World} {i : Nat} {t : Thr} (ht : w.2[i]? = some t)
    (h : TInv kind file prog t (w.1 t.fd)) (hi : t.pc = .idle) :
    ∃ t', (turn kind junk file w i).2[i]? = some t' ∧ t'.base = t.base ∧ t'.len = t.len ∧ t'.pc = .idle ∧ t'.cmds = t.cmds.tail ∧
      TInv kind file prog t' ((turn kind junk file w i).1 t'.fd) ∧ (turn kind junk file w i).2.length = w.2.length ∧
      ∀ j, i ≠ j → (turn kind junk file w i).2[j]? = w.2[j]? := by
  have step1 : ∀ (w : World) (t : Thr), w.2[i]? = some t → TInv kind file prog t (w.1 t.fd) → ∃ t', (wstep kind junk file w i).2[i]? = some t' ∧ t'.base = t.base ∧ t'.len = t.len ∧
      TInv kind file prog t' ((wstep kind junk file w i).1 t'.fd) ∧ (t'.pc = .idle → t'.cmds = t.cmds.tail) ∧ (t'.pc ≠ .idle → t'.cmds = t.cmds ∧ rank t.pc < rank t'.pc) := by
    intro w t ht h
    obtain ⟨g1, g2⟩ := wstep_self (kind := kind) (junk := junk) (file := file) ht
    obtain ⟨s1, s2, s3⟩ := tstep_same kind junk file t (w.1 t.fd)
    obtain ⟨h1, -, -, -, h5, h6⟩ := tstep_inv (junk := junk) h
    exact ⟨_, g1, s2, s3, by rw [s1, g2]; exact h1, h5, h6⟩
  obtain ⟨t1, a1, a2, a3, a4, a5, a6⟩ := step1 w t ht h
  unfold turn
  dsimp only
  by_cases b1 : t1.pc = .idle
  · rw [if_neg (by rw [busy_iff a1 a4]; exact fun hn => hn b1)]
    exact ⟨t1, a1, a2, a3, b1, a5 b1, a4, wstep_length, fun j hj => wstep_other hj⟩
  · rw [if_pos ((busy_iff a1 a4).2 b1)]
    obtain ⟨t2, c1, c2, c3, c4, c5, c6⟩ := step1 _ t1 a1 a4
    by_cases b2 : t2.pc = .idle
    · rw [if_neg (by rw [busy_iff c1 c4]; exact fun hn => hn b2)]
      exact ⟨t2, c1, by rw [c2, a2], by rw [c3, a3], b2, by rw [c5 b2, (a6 b1).1], c4, by rw [wstep_length, wstep_length], fun j hj => by rw [wstep_other hj, wstep_other hj]⟩
    · rw [if_pos ((busy_iff c1 c4).2 b2)]
      obtain ⟨t3, d1, d2, d3, d4, d5, d6⟩ := step1 _ t2 c1 c4
      have b3 : t3.pc = .idle := by
        apply Classical.byContradiction
        intro b3
        have r1 := (a6 b1).2
        have r2 := (c6 b2).2
        have r3 := (d6 b3).2
        have : rank t3.pc ≤ 2 := by cases t3.pc <;> simp [rank]
        omega
      exact ⟨t3, d1, by rw [d2, c2, a2], by rw [d3, c3, a3], b3, by rw [d5 b3, (c6 b2).1, (a6 b1).1], d4, by rw [wstep_length, wstep_length, wstep_length],
        fun j hj => by rw [wstep_other hj, wstep_other hj, wstep_other hj]⟩

theorem turn_none {kind : Kind} {junk : Byte} {file : List Byte} {w : World} {i : Nat} (h : w.2[i]? = none) : turn kind junk file w i = w := by
  have e : wstep kind junk file w i = w := by unfold wstep; rw [h]
  unfold turn
  dsimp only
  rw [e, if_neg]
  unfold busy
  rw [h]
  decide

theorem turns_inv {kind : Kind} {junk : Byte} {file : List Byte} {ts : List Start} : ∀ (sched : List Nat) {w : World} {n : Nat → Nat}, TurnInv kind file ts w n →
    TurnInv kind file ts (turns kind junk file w sched) (fun i => n i + sched.count i) := by
  intro sched
  induction sched with
  | nil => intro w n h; exact h
  | cons i sched ih =>
    intro w n h
    have key : TurnInv kind file ts (turn kind junk file w i) (fun j => n j + if i = j then 1 else 0) := by
      cases ht : w.2[i]? with
      | none =>
        rw [turn_none ht]
        refine ⟨h.len, ?_⟩
        intro j x t hx ht'
        obtain ⟨h1, h2, h3, h4, h5⟩ := h.thr j x t hx ht'
        have hij : i ≠ j := by rintro rfl; rw [ht] at ht'; cases ht'
        exact ⟨h1, h2, h3, h4, by rw [if_neg hij]; exact h5⟩
      | some t =>
        obtain ⟨x, hx⟩ : ∃ x, ts[i]? = some x := by
          have := (List.getElem?_eq_some_iff.1 ht).1
          rw [h.len] at this
          exact ⟨_, List.getElem?_eq_getElem this⟩
        obtain ⟨h1, h2, h3, h4, h5⟩ := h.thr i x t hx ht
        obtain ⟨t', g1, g2, g3, g4, g5, g6, g7, g8⟩ := turn_spec (junk := junk) ht h1 h4
        refine ⟨by rw [g7, h.len], ?_⟩
        intro j y u hy hu
        by_cases hij : i = j
        · subst hij
          rw [g1] at hu
          cases hu
          rw [hx] at hy
          cases hy
          refine ⟨g6, by rw [g2, h2], by rw [g3, h3], g4, ?_⟩
          rw [g5, h5, if_pos rfl, List.tail_drop]
        · rw [g8 j hij] at hu
          obtain ⟨k1, k2, k3, k4, k5⟩ := h.thr j y u hy hu
          exact ⟨k1.any k4 _, k2, k3, k4, by rw [if_neg hij]; exact k5⟩
    have := ih key
    refine ⟨this.len, ?_⟩
    intro j x t hx ht
    obtain ⟨h1, h2, h3, h4, h5⟩ := this.thr j x t hx ht
    refine ⟨h1, h2, h3, h4, ?_⟩
    rw [h5]
    congr 1
    by_cases hij : i = j
    · subst hij; rw [if_pos rfl, List.count_cons_self]; omega
    · rw [if_neg hij, List.count_cons_of_ne hij]; omega

end Ferret.SharedFile
