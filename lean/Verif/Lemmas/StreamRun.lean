import Verif.Model.StreamRun
import Verif.Lemmas.StreamOps

namespace Ferret.Store
open Ferret.Spec

theorem doOut_spec (junk : Byte) {o : OutS} {d : List Byte} {p : Nat} (h : OutOK o d p) (op : OutOp) {d' : List Byte} {p' : Nat} (hs : outOp (d, p) op = some (d', p')) :
    ∃ o', doOut junk o op = .ok o' ∧ OutOK o' d' p' := by
  cases op with
  | byte b => simp only [outOp, Option.some.injEq, Prod.mk.injEq] at hs; obtain ⟨rfl, rfl⟩ := hs; exact emits_byte junk b o d p h
  | bytes s => simp only [outOp, Option.some.injEq, Prod.mk.injEq] at hs; obtain ⟨rfl, rfl⟩ := hs; exact emits_bytes junk s o d p h
  | seek q =>
    simp only [outOp] at hs
    split at hs
    · simp only [Option.some.injEq, Prod.mk.injEq] at hs; obtain ⟨rfl, rfl⟩ := hs
      rename_i hq
      obtain ⟨o', h1, h2, -⟩ := osSeek_spec junk h q hq; exact ⟨o', h1, h2⟩
    · cases hs
  | flush =>
    simp only [outOp, Option.some.injEq, Prod.mk.injEq] at hs; obtain ⟨rfl, rfl⟩ := hs
    obtain ⟨o', h1, h2, -⟩ := osFlush_spec junk h; exact ⟨o', h1, h2⟩

theorem doOuts_spec (junk : Byte) (ops : List OutOp) : ∀ {o : OutS} {d : List Byte} {p : Nat}, OutOK o d p → ∀ {d' p'}, outOps (d, p) ops = some (d', p') →
    ∃ o', doOuts junk o ops = .ok o' ∧ OutOK o' d' p' := by
  induction ops with
  | nil => intro o d p h d' p' hs; simp only [outOps, Option.some.injEq, Prod.mk.injEq] at hs; obtain ⟨rfl, rfl⟩ := hs; exact ⟨o, rfl, h⟩
  | cons op ops ih =>
    intro o d p h d' p' hs
    simp only [outOps] at hs
    obtain ⟨⟨d1, p1⟩, h1, h2⟩ := Option.bind_eq_some_iff.1 hs
    obtain ⟨o1, h3, h4⟩ := doOut_spec junk h op h1
    obtain ⟨o2, h5, h6⟩ := ih h4 h2
    exact ⟨o2, by simp only [doOuts]; rw [h3, Res.ok_bind, h5], h6⟩

theorem newOutput_spec {f : OutFile} (hwf : f.WF) : OutOK (newOutput f) f.content 0 := by
  refine ⟨?_, by simp [newOutput], ?_, by simp [newOutput], by simp [newOutput], ?_⟩
  · cases f <;> exact hwf
  · cases f <;> rfl
  · simp only [newOutput, writeAt_nil]; cases f <;> rfl

theorem osClose_spec (junk : Byte) {o : OutS} {d : List Byte} {p : Nat} (h : OutOK o d p) : ∃ f, osClose junk o = .ok f ∧ f.WF ∧ f.content = d := by
  obtain ⟨o', h1, h2, -, h3⟩ := osFlush_spec junk h
  exact ⟨o'.file, by simp only [osClose]; rw [h1, Res.ok_bind], h2.wf, h3⟩

theorem doSessions_spec (junk : Byte) (ss : List (List OutOp)) : ∀ {f : OutFile}, f.WF → ∀ {d}, sessions f.content ss = some d → ∃ f', doSessions junk f ss = .ok f' ∧ f'.WF ∧ f'.content = d := by
  induction ss with
  | nil => intro f h d hs; simp only [sessions, Option.some.injEq] at hs; exact ⟨f, rfl, h, hs⟩
  | cons ops rest ih =>
    intro f h d hs
    simp only [sessions] at hs
    obtain ⟨⟨d1, p1⟩, h1, h2⟩ := Option.bind_eq_some_iff.1 hs
    obtain ⟨o1, h3, h4⟩ := doOuts_spec junk ops (newOutput_spec h) h1
    obtain ⟨f1, h5, h6, h7⟩ := osClose_spec junk h4
    rw [← h7] at h2
    obtain ⟨f2, h8, h9⟩ := ih h6 h2
    exact ⟨f2, by simp only [doSessions]; rw [h3, Res.ok_bind, h5, Res.ok_bind, h8], h9⟩

theorem openInput_spec {f : OutFile} (h : f.WF) : InOK (openInput f) f.content 0 := by
  cases f with
  | ram rf p => exact isOpen_spec (f := .ram rf 0) h
  | fs data p => exact isOpen_spec (f := .fs data) trivial

/-- A family of streams at these positions. -/
def InAll (ss : List InS) (d : List Byte) (ps : List Nat) : Prop :=
  ss.length = ps.length ∧ ∀ (i : Nat) (s : InS) (p : Nat), ss[i]? = some s → ps[i]? = some p → InOK s d p

theorem InAll.get {ss : List InS} {d : List Byte} {ps : List Nat} (h : InAll ss d ps) {i p : Nat} (hp : ps[i]? = some p) : ∃ s, ss[i]? = some s ∧ InOK s d p := by
  obtain ⟨hi, -⟩ := List.getElem?_eq_some_iff.1 hp
  have hs : ss[i]? = some (ss[i]'(by rw [h.1]; exact hi)) := List.getElem?_eq_getElem _
  exact ⟨_, hs, h.2 i _ p hs hp⟩

theorem InAll.set {ss : List InS} {d : List Byte} {ps : List Nat} (h : InAll ss d ps) (i : Nat) {s : InS} {p : Nat} (hs : InOK s d p) : InAll (ss.set i s) d (ps.set i p) := by
  refine ⟨by simp [h.1], ?_⟩
  intro j t q h1 h2
  by_cases hj : i = j
  · subst hj
    rw [List.getElem?_set] at h1 h2
    simp only [if_true] at h1 h2
    split at h1 <;> split at h2 <;> simp_all
  · rw [List.getElem?_set_ne hj] at h1 h2
    exact h.2 j t q h1 h2

theorem InAll.set_left {ss : List InS} {d : List Byte} {ps : List Nat} (h : InAll ss d ps) {i p : Nat} {s : InS} (hp : ps[i]? = some p) (hs : InOK s d p) : InAll (ss.set i s) d ps := by
  have := h.set i hs
  obtain ⟨hi, rfl⟩ := List.getElem?_eq_some_iff.1 hp
  rwa [List.set_getElem_self] at this

theorem doIn_spec {ss : List InS} {d : List Byte} {ps : List Nat} (h : InAll ss d ps) (c : InCmd) {r : InObs} {ps' : List Nat} (hc : inCmd d ps c = some (r, ps')) :
    ∃ ss', doIn ss c = .ok (r, ss') ∧ InAll ss' d ps' := by
  cases c with
  | byte i =>
    simp only [inCmd] at hc
    obtain ⟨p, hp, hr⟩ := Option.map_eq_some_iff.1 hc
    obtain ⟨s, hs, hok⟩ := h.get hp
    simp only [doIn, hs, Res.ofOption, Res.ok_bind]
    rcases isReadByteSt_spec hok with ⟨b, s', h1, h2, h3⟩ | ⟨h1, s', h2, h3⟩
    · rw [h1] at hr
      simp only [Prod.mk.injEq] at hr
      obtain ⟨rfl, rfl⟩ := hr
      exact ⟨_, by rw [h2, Res.ok_bind], h.set i h3⟩
    · rw [List.getElem?_eq_none h1] at hr
      simp only [Prod.mk.injEq] at hr
      obtain ⟨rfl, rfl⟩ := hr
      exact ⟨_, by rw [h2, Res.ok_bind], h.set_left hp h3⟩
  | bytes i n =>
    simp only [inCmd] at hc
    obtain ⟨p, hp, hr⟩ := Option.bind_eq_some_iff.1 hc
    obtain ⟨s, hs, hok⟩ := h.get hp
    simp only [doIn, hs, Res.ofOption, Res.ok_bind]
    split at hr
    · rename_i hle
      simp only [Option.some.injEq, Prod.mk.injEq] at hr
      obtain ⟨rfl, rfl⟩ := hr
      obtain ⟨s', h1, h2⟩ := isReadBytes_spec hok n (.inl hle)
      exact ⟨_, by rw [h1, Res.ok_bind], h.set i h2⟩
    · cases hr
  | seek i q =>
    simp only [inCmd] at hc
    obtain ⟨p, hp, hr⟩ := Option.map_eq_some_iff.1 hc
    obtain ⟨s, hs, hok⟩ := h.get hp
    simp only [doIn, hs, Res.ofOption, Res.ok_bind]
    simp only [Prod.mk.injEq] at hr
    obtain ⟨rfl, rfl⟩ := hr
    exact ⟨_, rfl, h.set i (isSeek_spec hok q)⟩
  | pos i =>
    simp only [inCmd] at hc
    obtain ⟨p, hp, hr⟩ := Option.map_eq_some_iff.1 hc
    obtain ⟨s, hs, hok⟩ := h.get hp
    simp only [doIn, hs, Res.ofOption, Res.ok_bind]
    simp only [Prod.mk.injEq] at hr
    obtain ⟨rfl, rfl⟩ := hr
    exact ⟨ss, by rw [hok.pos]; rfl, h⟩
  | clone i =>
    simp only [inCmd] at hc
    obtain ⟨p, hp, hr⟩ := Option.map_eq_some_iff.1 hc
    obtain ⟨s, hs, hok⟩ := h.get hp
    simp only [doIn, hs, Res.ofOption, Res.ok_bind]
    simp only [Prod.mk.injEq] at hr
    obtain ⟨rfl, rfl⟩ := hr
    refine ⟨_, rfl, by simp [h.1], ?_⟩
    intro j t q h1 h2
    rw [List.getElem?_append] at h1 h2
    rw [h.1] at h1
    split at h1
    · rename_i hj; rw [if_pos hj] at h2; exact h.2 j t q h1 h2
    · rename_i hj
      rw [if_neg hj] at h2
      generalize j - ps.length = m at h1 h2
      cases m with
      | zero => simp at h1 h2; subst h1 h2; exact hok
      | succ m => simp at h1

theorem doIns_spec {d : List Byte} (cs : List InCmd) : ∀ {ss : List InS} {ps : List Nat}, InAll ss d ps → ∀ {rs}, inCmds d ps cs = some rs → doIns ss cs = .ok rs := by
  induction cs with
  | nil => intro ss ps _ rs hr; simp only [inCmds, Option.some.injEq] at hr; subst hr; rfl
  | cons c cs ih =>
    intro ss ps h rs hr
    simp only [inCmds] at hr
    obtain ⟨⟨r, ps'⟩, h1, h2⟩ := Option.bind_eq_some_iff.1 hr
    obtain ⟨rs', h3, rfl⟩ := Option.map_eq_some_iff.1 h2
    obtain ⟨ss', h4, h5⟩ := doIn_spec h c h1
    simp only [doIns]
    rw [h4, Res.ok_bind, ih h5 h3, Res.ok_bind]

/-! ### Typed values -/

/-- The wire format. -/
def encVal : Val → List Byte
  | .byte b => [b]
  | .u32 n => beBytes 4 n
  | .u64 n => beBytes 8 n
  | .i32 x => beBytes 4 (toU 4 x)
  | .i64 x => beBytes 8 (toU 8 x)
  | .vint n => Ferret.vint n
  | .voff x => Ferret.vint x.toNat
  | .vll n => Ferret.vint n
  | .str s => vstring s
  | .block s => s

theorem writeVal_spec (junk : Byte) (v : Val) (hf : v.fits) : Emits (fun o => writeVal junk o v) (encVal v) := by
  cases v with
  | byte b => exact emits_byte junk b
  | u32 n => exact emits_u junk 4 n
  | u64 n => exact emits_u junk 8 n
  | i32 x => exact emits_i junk 4 x
  | i64 x => exact emits_i junk 8 x
  | vint n => exact emits_v junk n (Nat.lt_of_lt_of_le hf (by decide))
  | voff x =>
    have hx : 0 ≤ x ∧ x < 2 ^ 63 := hf
    have := emits_v junk x.toNat (by omega)
    simp only [writeVal, encVal, osWriteVoff, show ¬ x < 0 by omega, if_false]
    exact this
  | vll n => exact emits_v junk n hf
  | str s => exact emits_string junk s hf
  | block s => exact emits_bytes junk s

theorem writeVals_spec (junk : Byte) (vs : List Val) (hf : ∀ v ∈ vs, v.fits) : Emits (fun o => writeVals junk o vs) (vs.flatMap encVal) := by
  induction vs with
  | nil => exact Emits.ok
  | cons v vs ih =>
    rw [List.flatMap_cons]
    exact (writeVal_spec junk v (hf v (by simp))).bind (ih fun w hw => hf w (by simp [hw]))

theorem readVal_spec {s : InS} {d : List Byte} {p : Nat} (h : InOK s d p) (v : Val) (hf : v.fits) {rest : List Byte} (hd : d.drop p = encVal v ++ rest) :
    ∃ s' p', readVal s v.kind = .ok (v, s') ∧ InOK s' d p' ∧ d.drop p' = rest := by
  cases v with
  | byte b =>
    obtain ⟨s', p', h1, h2, h3⟩ := reads_byte s d p h b rest (by rw [hd]; rfl)
    exact ⟨s', p', by simp only [readVal, Val.kind]; rw [h1, Res.ok_bind], h2, h3⟩
  | u32 n =>
    obtain ⟨s', p', h1, h2, h3⟩ := reads_u 4 0 s d p h n rest (by rw [hd]; have := rdBE_beBytes 4 0 n rest (show n < 256 ^ 4 from hf); simpa [encVal] using this)
    exact ⟨s', p', by simp only [readVal, Val.kind]; rw [h1, Res.ok_bind], h2, h3⟩
  | u64 n =>
    obtain ⟨s', p', h1, h2, h3⟩ := reads_u 8 0 s d p h n rest (by rw [hd]; have := rdBE_beBytes 8 0 n rest (show n < 256 ^ 8 from hf); simpa [encVal] using this)
    exact ⟨s', p', by simp only [readVal, Val.kind]; rw [h1, Res.ok_bind], h2, h3⟩
  | i32 x =>
    have hx : -2 ^ 31 ≤ x ∧ x < 2 ^ 31 := hf
    obtain ⟨ht1, ht2⟩ := toS_toU 4 x (by omega) (by omega)
    obtain ⟨s', p', h1, h2, h3⟩ := reads_u 4 0 s d p h (toU 4 x) rest (by rw [hd]; have := rdBE_beBytes 4 0 _ rest ht2; simpa [encVal] using this)
    exact ⟨s', p', by simp only [readVal, Val.kind, isReadI]; rw [h1, Res.ok_bind, Res.ok_bind, ht1], h2, h3⟩
  | i64 x =>
    have hx : -2 ^ 63 ≤ x ∧ x < 2 ^ 63 := hf
    obtain ⟨ht1, ht2⟩ := toS_toU 8 x (by omega) (by omega)
    obtain ⟨s', p', h1, h2, h3⟩ := reads_u 8 0 s d p h (toU 8 x) rest (by rw [hd]; have := rdBE_beBytes 8 0 _ rest ht2; simpa [encVal] using this)
    exact ⟨s', p', by simp only [readVal, Val.kind, isReadI]; rw [h1, Res.ok_bind, Res.ok_bind, ht1], h2, h3⟩
  | vint n =>
    obtain ⟨s', p', h1, h2, h3⟩ := reads_v 32 (by decide) s d p h n rest (by rw [hd]; exact rdVint_vint n hf rest)
    exact ⟨s', p', by simp only [readVal, Val.kind]; rw [h1, Res.ok_bind], h2, h3⟩
  | voff x =>
    have hx : 0 ≤ x ∧ x < 2 ^ 63 := hf
    obtain ⟨s', p', h1, h2, h3⟩ := reads_v 64 (by decide) s d p h x.toNat rest (by rw [hd]; exact rdVll_vint x.toNat (by omega) rest)
    refine ⟨s', p', ?_, h2, h3⟩
    simp only [readVal, Val.kind]; rw [h1, Res.ok_bind]
    have : toS 8 x.toNat = x := by unfold toS; rw [if_pos (by omega)]; omega
    simp only [this]
  | vll n =>
    obtain ⟨s', p', h1, h2, h3⟩ := reads_v 64 (by decide) s d p h n rest (by rw [hd]; exact rdVll_vint n hf rest)
    exact ⟨s', p', by simp only [readVal, Val.kind]; rw [h1, Res.ok_bind], h2, h3⟩
  | str t =>
    have ht : t.length < 2 ^ 31 := hf
    obtain ⟨s', p', h1, h2, h3⟩ := reads_string s d p h t rest (by
      rw [hd]; simp only [encVal, vstring, List.append_assoc]
      rw [rdVint_vint _ (by omega), Res.ok_bind]; simp only; rw [if_pos ht, rdBytes_append])
    exact ⟨s', p', by simp only [readVal, Val.kind]; rw [h1, Res.ok_bind], h2, h3⟩
  | block t =>
    obtain ⟨s', p', h1, h2, h3⟩ := reads_bytes t.length s d p h t rest (by rw [hd]; exact rdBytes_append t rest)
    simp only at h1
    exact ⟨s', p', by simp only [readVal, Val.kind]; rw [h1, Res.ok_bind], h2, h3⟩

theorem readVals_spec (vs : List Val) (hf : ∀ v ∈ vs, v.fits) : ∀ {s : InS} {d : List Byte} {p : Nat}, InOK s d p → ∀ {rest}, d.drop p = vs.flatMap encVal ++ rest → readVals s (vs.map Val.kind) = .ok vs := by
  induction vs with
  | nil => intro s d p _ rest _; rfl
  | cons v vs ih =>
    intro s d p h rest hd
    rw [List.flatMap_cons, List.append_assoc] at hd
    obtain ⟨s', p', h1, h2, h3⟩ := readVal_spec h v (hf v (by simp)) hd
    simp only [List.map_cons, readVals]
    rw [h1, Res.ok_bind, ih (fun w hw => hf w (by simp [hw])) h2 h3, Res.ok_bind]

/-! ### ramo_write_to -/

def IsRam (f : OutFile) : Prop := ∃ rf q, f = .ram rf q

theorem flushI_ram {junk : Byte} {f f' : OutFile} {src : List Byte} (h : IsRam f) (hr : flushI junk f src = .ok f') : IsRam f' := by
  obtain ⟨rf, q, rfl⟩ := h
  simp only [flushI] at hr
  obtain ⟨r, -, hr2⟩ := Res.bind_eq_ok.1 hr
  cases hr2; exact ⟨_, _, rfl⟩

theorem osFlush_ram {junk : Byte} {o o' : OutS} (h : IsRam o.file) (hr : osFlush junk o = .ok o') : IsRam o'.file := by
  simp only [osFlush] at hr
  obtain ⟨r, hr1, hr2⟩ := Res.bind_eq_ok.1 hr
  cases hr2; exact flushI_ram h hr1

theorem bytesLoop_ram {junk : Byte} : ∀ (fuel : Nat) {o o' : OutS} {src : List Byte}, IsRam o.file → osBytesLoop junk fuel o src = .ok o' → IsRam o'.file := by
  intro fuel
  induction fuel with
  | zero => intro o o' src h hr; unfold osBytesLoop at hr; split at hr <;> cases hr; exact h
  | succ f ih =>
    intro o o' src h hr
    unfold osBytesLoop at hr
    split at hr
    · cases hr; exact h
    · obtain ⟨r, hr1, hr2⟩ := Res.bind_eq_ok.1 hr
      exact ih (flushI_ram h hr1) hr2

theorem doOut_ram {junk : Byte} {o o' : OutS} {op : OutOp} (h : IsRam o.file) (hr : doOut junk o op = .ok o') : IsRam o'.file := by
  cases op with
  | byte b =>
    simp only [doOut, osWriteByte] at hr
    obtain ⟨o1, h1, h2⟩ := Res.bind_eq_ok.1 hr
    unfold writeByte at h2
    split at h2 <;> cases h2
    show IsRam o1.file
    split at h1
    · exact osFlush_ram h h1
    · cases h1; exact h
  | bytes s =>
    simp only [doOut, osWriteBytes] at hr
    obtain ⟨o1, h1, h2⟩ := Res.bind_eq_ok.1 hr
    have h3 : IsRam o1.file := by
      split at h1
      · exact osFlush_ram h h1
      · cases h1; exact h
    split at h2
    · obtain ⟨f, hf1, hf2⟩ := Res.bind_eq_ok.1 h2
      cases hf2; exact flushI_ram h3 hf1
    · exact bytesLoop_ram _ h3 h2
  | seek q =>
    simp only [doOut, osSeek] at hr
    obtain ⟨o1, h1, h2⟩ := Res.bind_eq_ok.1 hr
    cases h2
    obtain ⟨rf, q, hf⟩ := osFlush_ram h h1
    simp only [hf, seekI]; exact ⟨_, _, rfl⟩
  | flush => exact osFlush_ram h hr

theorem doOuts_ram (junk : Byte) (ops : List OutOp) : ∀ {o o' : OutS}, IsRam o.file → doOuts junk o ops = .ok o' → IsRam o'.file := by
  induction ops with
  | nil => intro o o' h hr; cases hr; exact h
  | cons op ops ih =>
    intro o o' h hr
    obtain ⟨o1, h1, h2⟩ := Res.bind_eq_ok.1 hr
    exact ih (doOut_ram h h1) h2

theorem writeToLoop_spec (junk : Byte) {rf : RamFile} (hwf : rf.WF) (last : Nat) (hlast : last = rf.len / bufSize) : ∀ (n i : Nat), i + n = last + 1 → last < rf.bufs.length →
    Emits (fun o => writeToLoop junk rf last n i o) (slice rf.flat (bufSize * i) (rf.len - bufSize * i)) := by
  intro n
  induction n with
  | zero =>
    intro i hi _
    have : rf.len - bufSize * i = 0 := by
      have h1 := Nat.div_add_mod rf.len bufSize
      have h2 : rf.len % bufSize < bufSize := Nat.mod_lt _ (by decide)
      have h3 : bufSize * i = bufSize * (rf.len / bufSize) + bufSize := by rw [show i = last + 1 by omega, hlast, Nat.mul_succ]
      omega
    rw [this, slice_zero]
    exact Emits.ok
  | succ n ih =>
    intro i hi hl
    have hk : i < rf.bufs.length := by omega
    have hb : rf.bufs[i]? = some rf.bufs[i] := List.getElem?_eq_getElem hk
    have hbl : rf.bufs[i].length = bufSize := hwf.size _ (List.getElem_mem hk)
    have h1 := Nat.div_add_mod rf.len bufSize
    have h2 : rf.len % bufSize < bufSize := Nat.mod_lt _ (by decide)
    have hbs : 0 < bufSize := by decide
    generalize hm : (if i = last then rf.len % bufSize else bufSize) = m
    have hi1 : bufSize * (i + 1) = bufSize * i + bufSize := Nat.mul_succ _ _
    have hsum : m + (rf.len - bufSize * (i + 1)) = rf.len - bufSize * i := by
      by_cases hil : i = last
      · rw [if_pos hil] at hm
        rw [hi1, ← hm]
        rw [show i = rf.len / bufSize by omega]; omega
      · rw [if_neg hil] at hm
        have : bufSize * (i + 1) ≤ bufSize * (rf.len / bufSize) := Nat.mul_le_mul_left _ (by omega)
        omega
    have hmb : m ≤ bufSize := by split at hm <;> omega
    have hpiece : rf.bufs[i].take m = slice rf.flat (bufSize * i) m := by
      apply List.ext_getElem?
      intro j
      rw [List.getElem?_take, slice_getElem?]
      split
      · rename_i hj
        rw [RamFile.flat, flat_getElem? hwf.size]
        have e1 : (bufSize * i + j) / bufSize = i := by rw [Nat.mul_add_div hbs, Nat.div_eq_of_lt (by omega)]; rfl
        have e2 : (bufSize * i + j) % bufSize = j := by rw [Nat.mul_add_mod, Nat.mod_eq_of_lt (by omega)]
        rw [e1, e2, hb]; rfl
      · rfl
    have hmul : bufSize * i + m = bufSize * (i + 1) ∨ rf.len - bufSize * (i + 1) = 0 := by
      by_cases hil : i = last
      · right; rw [hi1, show i = rf.len / bufSize by omega]; omega
      · left; rw [if_neg hil] at hm; omega
    have hcat : slice rf.flat (bufSize * i) m ++ slice rf.flat (bufSize * (i + 1)) (rf.len - bufSize * (i + 1)) = slice rf.flat (bufSize * i) (rf.len - bufSize * i) := by
      rw [← hsum, ← slice_append_slice]
      rcases hmul with h | h
      · rw [h]
      · rw [h, slice_zero, slice_zero]
    rw [← hcat]
    have := (emits_bytes junk (slice rf.flat (bufSize * i) m)).bind (ih (i + 1) (by omega) hl)
    simp only [writeToLoop, hb, hm, hpiece]
    exact this

theorem ramoWriteTo_spec (junk : Byte) {o : OutS} {d : List Byte} {p : Nat} (h : OutOK o d p) (hram : ∃ rf q, o.file = .ram rf q) (hd : d.length % bufSize ≠ 0)
    {other : OutS} {d2 : List Byte} {p2 : Nat} (h2 : OutOK other d2 p2) :
    ∃ o' other', ramoWriteTo junk o other = .ok (o', other') ∧ OutOK o' d p ∧ OutOK other' (writeAt d2 p2 d) (p2 + d.length) := by
  obtain ⟨o1, h3, h4, h5, h6⟩ := osFlush_spec junk h
  have hram1 : ∃ rf q, o1.file = .ram rf q := by
    obtain ⟨rf, q, hf⟩ := hram
    simp only [osFlush, hf, flushI] at h3
    obtain ⟨f, hf1, hf2⟩ := Res.bind_eq_ok.1 h3
    obtain ⟨r, hr1, hr2⟩ := Res.bind_eq_ok.1 hf1
    cases hr2
    cases hf2
    exact ⟨_, _, rfl⟩
  obtain ⟨rf, q, hf⟩ := hram1
  have hwf : rf.WF := by have := h4.wf; rw [hf] at this; exact this
  have hc : rf.content = d := by rw [hf] at h6; exact h6
  have hlen : d.length = rf.len := by rw [← hc]; exact content_length hwf
  have hlt : rf.len / bufSize < rf.bufs.length := by
    apply Nat.div_lt_of_lt_mul
    have := hwf.len
    rcases Nat.lt_or_ge rf.len (bufSize * rf.bufs.length) with h | h
    · exact h
    · exfalso; apply hd; rw [hlen, show rf.len = bufSize * rf.bufs.length by omega, Nat.mul_mod_right]
  obtain ⟨other', h7, h8⟩ := writeToLoop_spec junk hwf _ rfl (rf.len / bufSize + 1) 0 (by omega) hlt other d2 p2 h2
  have hsl : slice rf.flat (bufSize * 0) (rf.len - bufSize * 0) = d := by rw [← hc]; simp [slice, RamFile.content]
  rw [hsl] at h8
  refine ⟨o1, other', ?_, h4, h8⟩
  simp only [ramoWriteTo]
  rw [h3, Res.ok_bind, hf]
  simp only at h7 ⊢
  rw [h7, Res.ok_bind]

end Ferret.Store
