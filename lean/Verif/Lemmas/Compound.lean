import Verif.Model.Compound
import Verif.Lemmas.StreamRun
import Verif.Lemmas.Codec
import Verif.Lemmas.Disk

namespace Ferret.Compound
open Ferret Ferret.Spec Ferret.Store

/-! ### A member behaves as a file with its bytes -/

/-- The stream on a member corresponds to one on a file with the member's bytes. -/
structure SubOK (s t : InS) (base : List Byte) (off len : Nat) : Prop where
  file : s.file = .cmpd base off len
  file' : t.file = .fs (slice base off len)
  buf : s.buf = t.buf
  start : s.start = t.start
  pos : s.pos = t.pos

theorem slice_slice (l : List Byte) (a b p n : Nat) (h : p + n ≤ b) : slice (slice l a b) p n = slice l (a + p) n := by
  unfold slice
  rw [List.drop_take, List.drop_drop, List.take_take, Nat.min_eq_left (by omega)]

theorem slice_len {l : List Byte} {a b : Nat} (h : a + b ≤ l.length) : (slice l a b).length = b := by
  unfold slice
  rw [List.length_take, List.length_drop]
  omega

theorem readI_sub {base : List Byte} {off len p n : Nat} (hb : off + len ≤ base.length) (h : p + n ≤ len) :
    readI p (.cmpd base off len) n = .ok (slice (slice base off len) p n, .cmpd base off len) ∧
    readI p (.fs (slice base off len)) n = .ok (slice (slice base off len) p n, .fs (slice base off len)) := by
  constructor
  · simp only [readI]
    rw [if_neg (by omega), if_pos (by omega), slice_slice _ _ _ _ _ h]
  · simp only [readI]
    rw [if_pos (Or.inl (by rw [slice_len hb]; exact h))]

theorem isRefill_sub {s t : InS} {base : List Byte} {off len : Nat} (hb : off + len ≤ base.length) (h : SubOK s t base off len) :
    ∃ b s' t', isRefill s = .ok (b, s') ∧ isRefill t = .ok (b, t') ∧ SubOK s' t' base off len := by
  obtain ⟨file, file', buf, start, pos⟩ := h
  obtain ⟨f, bu, st, po⟩ := s
  obtain ⟨f', bu', st', po'⟩ := t
  dsimp only at file file' buf start pos
  subst file file' buf start pos
  have hl : inLength (.fs (slice base off len)) = len := slice_len hb
  have hl' : inLength (.cmpd base off len) = len := rfl
  unfold isRefill isPos
  dsimp only
  rw [hl, hl']
  by_cases hle : (if st + po + bufSize > len then len else st + po + bufSize) ≤ st + po
  · rw [if_pos hle, if_pos hle]
    exact ⟨false, _, _, rfl, rfl, ⟨rfl, rfl, rfl, rfl, rfl⟩⟩
  · rw [if_neg hle, if_neg hle]
    have hle : st + po + ((if st + po + bufSize > len then len else st + po + bufSize) - (st + po)) ≤ len := by
      split at hle <;> split <;> omega
    obtain ⟨e1, e2⟩ := readI_sub hb hle
    rw [e1, e2]
    exact ⟨true, _, _, rfl, rfl, ⟨rfl, rfl, rfl, rfl, rfl⟩⟩

theorem readByte_sub {s t : InS} {base : List Byte} {off len : Nat} (h : SubOK s t base off len) {b : Byte} {t' : InS} (ht : readByte t = .ok (b, t')) :
    ∃ s', readByte s = .ok (b, s') ∧ SubOK s' t' base off len := by
  unfold readByte at *
  rw [h.buf, h.pos]
  split at ht
  · cases ht
  · rename_i b' e
    cases ht
    exact ⟨_, rfl, ⟨h.file, h.file', rfl, h.start, rfl⟩⟩

theorem isReadByteSt_sub {s t : InS} {base : List Byte} {off len : Nat} (hb : off + len ≤ base.length) (h : SubOK s t base off len) {r : Option Byte} {t' : InS}
    (ht : isReadByteSt t = .ok (r, t')) : ∃ s', isReadByteSt s = .ok (r, s') ∧ SubOK s' t' base off len := by
  unfold isReadByteSt at *
  rw [h.pos, h.buf]
  split at ht
  · rename_i hge
    rw [if_pos hge]
    obtain ⟨b, s1, t1, e1, e2, h1⟩ := isRefill_sub hb h
    rw [e2, Res.ok_bind] at ht
    rw [e1, Res.ok_bind]
    cases b with
    | true =>
      simp only [if_true] at ht ⊢
      obtain ⟨⟨x, t2⟩, e3, e4⟩ := Res.bind_eq_ok.mp ht
      obtain ⟨s2, e5, h2⟩ := readByte_sub h1 e3
      cases e4
      rw [e5]
      exact ⟨s2, rfl, h2⟩
    | false =>
      simp only [Bool.false_eq_true, if_false] at ht ⊢
      cases ht
      exact ⟨s1, rfl, h1⟩
  · rename_i hge
    rw [if_neg hge]
    obtain ⟨⟨x, t2⟩, e3, e4⟩ := Res.bind_eq_ok.mp ht
    obtain ⟨s2, e5, h2⟩ := readByte_sub h e3
    cases e4
    rw [e5]
    exact ⟨s2, rfl, h2⟩

theorem readLoop_sub {base : List Byte} {off len : Nat} : ∀ (n : Nat) {s t : InS}, SubOK s t base off len → ∀ {l : List Byte} {t' : InS}, readLoop readByte n t = .ok (l, t') →
    ∃ s', readLoop readByte n s = .ok (l, s') ∧ SubOK s' t' base off len := by
  intro n
  induction n with
  | zero => intro s t h l t' ht; cases ht; exact ⟨s, rfl, h⟩
  | succ n ih =>
    intro s t h l t' ht
    simp only [readLoop] at ht ⊢
    obtain ⟨⟨x, t1⟩, e1, ht⟩ := Res.bind_eq_ok.mp ht
    obtain ⟨⟨y, t2⟩, e2, ht⟩ := Res.bind_eq_ok.mp ht
    cases ht
    obtain ⟨s1, f1, h1⟩ := readByte_sub h e1
    obtain ⟨s2, f2, h2⟩ := ih h1 e2
    rw [f1, Res.ok_bind, f2]
    exact ⟨s2, rfl, h2⟩

theorem isReadBytes_sub {s t : InS} {base : List Byte} {off len : Nat} (hb : off + len ≤ base.length) (h : SubOK s t base off len) {n : Nat} (hn : isPos t + n ≤ len)
    {l : List Byte} {t' : InS} (ht : isReadBytes t n = .ok (l, t')) : ∃ s', isReadBytes s n = .ok (l, s') ∧ SubOK s' t' base off len := by
  unfold isReadBytes at *
  have hp : isPos s = isPos t := by unfold isPos; rw [h.start, h.pos]
  rw [h.pos, h.buf, hp]
  split at ht
  · rename_i hlt
    rw [if_pos hlt]
    exact readLoop_sub n h ht
  · rename_i hlt
    rw [if_neg hlt]
    dsimp only at ht ⊢
    rw [h.file'] at ht
    rw [h.file]
    simp only [inSeekI] at ht ⊢
    obtain ⟨e1, e2⟩ := readI_sub hb hn
    rw [e2, Res.ok_bind] at ht
    rw [e1, Res.ok_bind]
    cases ht
    exact ⟨_, rfl, ⟨rfl, rfl, rfl, rfl, rfl⟩⟩

theorem isSeek_sub {s t : InS} {base : List Byte} {off len : Nat} (h : SubOK s t base off len) (p : Nat) : SubOK (isSeek s p) (isSeek t p) base off len := by
  unfold isSeek
  rw [h.start, h.buf]
  split
  · exact ⟨h.file, h.file', rfl, rfl, rfl⟩
  · rw [h.file, h.file']
    exact ⟨rfl, rfl, rfl, rfl, rfl⟩

/-- Families of streams on one member. -/
structure SubAll (ss ts : List InS) (base : List Byte) (off len : Nat) : Prop where
  size : ss.length = ts.length
  each : ∀ (i : Nat) (s t : InS), ss[i]? = some s → ts[i]? = some t → SubOK s t base off len

theorem SubAll.get {ss ts : List InS} {base : List Byte} {off len : Nat} (h : SubAll ss ts base off len) {i : Nat} {t : InS} (ht : ts[i]? = some t) :
    ∃ s, ss[i]? = some s ∧ SubOK s t base off len := by
  obtain ⟨hi, -⟩ := List.getElem?_eq_some_iff.1 ht
  have hs : ss[i]? = some (ss[i]'(by rw [h.size]; exact hi)) := List.getElem?_eq_getElem _
  exact ⟨_, hs, h.each i _ t hs ht⟩

theorem SubAll.set {ss ts : List InS} {base : List Byte} {off len : Nat} (h : SubAll ss ts base off len) (i : Nat) {s t : InS} (hs : SubOK s t base off len) :
    SubAll (ss.set i s) (ts.set i t) base off len := by
  refine ⟨by simp [h.size], fun j a b ha hb => ?_⟩
  rw [List.getElem?_set] at ha hb
  by_cases hj : i = j
  · rw [if_pos hj] at ha hb
    split at ha
    · split at hb
      · cases ha; cases hb; exact hs
      · cases hb
    · cases ha
  · rw [if_neg hj] at ha hb
    exact h.each j a b ha hb

theorem SubAll.push {ss ts : List InS} {base : List Byte} {off len : Nat} (h : SubAll ss ts base off len) {s t : InS} (hs : SubOK s t base off len) :
    SubAll (ss ++ [s]) (ts ++ [t]) base off len := by
  refine ⟨by simp [h.size], fun j a b ha hb => ?_⟩
  by_cases hj : j < ts.length
  · rw [List.getElem?_append_left (by rw [h.size]; exact hj)] at ha
    rw [List.getElem?_append_left hj] at hb
    exact h.each j a b ha hb
  · rw [List.getElem?_append_right (by rw [h.size]; omega), h.size] at ha
    rw [List.getElem?_append_right (by omega)] at hb
    cases hk : j - ts.length with
    | zero => rw [hk] at ha hb; cases ha; cases hb; exact hs
    | succ k => rw [hk] at hb; cases hb

theorem doIn_sub {ss ts : List InS} {base : List Byte} {off len : Nat} (hb : off + len ≤ base.length) (h : SubAll ss ts base off len) (c : InCmd)
    (hc : ∀ i n, c = .bytes i n → ∀ t, ts[i]? = some t → isPos t + n ≤ len) {r : InObs} {ts' : List InS} (ht : doIn ts c = .ok (r, ts')) :
    ∃ ss', doIn ss c = .ok (r, ss') ∧ SubAll ss' ts' base off len := by
  have opt : ∀ (i : Nat) (t : InS), Res.ofOption ts[i]? = .ok t → ∃ s, Res.ofOption ss[i]? = .ok s ∧ SubOK s t base off len ∧ ts[i]? = some t := by
    intro i t e
    cases ht : ts[i]? with
    | none => rw [ht] at e; cases e
    | some t' =>
      rw [ht] at e
      cases e
      obtain ⟨s, hs, ho⟩ := h.get ht
      exact ⟨s, by rw [hs]; rfl, ho, rfl⟩
  cases c with
  | byte i =>
    simp only [doIn] at ht ⊢
    obtain ⟨t, e1, ht⟩ := Res.bind_eq_ok.mp ht
    obtain ⟨⟨b, t1⟩, e2, ht⟩ := Res.bind_eq_ok.mp ht
    cases ht
    obtain ⟨s, f1, ho, -⟩ := opt i t e1
    obtain ⟨s1, f2, h1⟩ := isReadByteSt_sub hb ho e2
    rw [f1, Res.ok_bind, f2, Res.ok_bind]
    exact ⟨_, rfl, h.set i h1⟩
  | bytes i n =>
    simp only [doIn] at ht ⊢
    obtain ⟨t, e1, ht⟩ := Res.bind_eq_ok.mp ht
    obtain ⟨⟨l, t1⟩, e2, ht⟩ := Res.bind_eq_ok.mp ht
    cases ht
    obtain ⟨s, f1, ho, hget⟩ := opt i t e1
    obtain ⟨s1, f2, h1⟩ := isReadBytes_sub hb ho (hc i n rfl t hget) e2
    rw [f1, Res.ok_bind, f2, Res.ok_bind]
    exact ⟨_, rfl, h.set i h1⟩
  | seek i p =>
    simp only [doIn] at ht ⊢
    obtain ⟨t, e1, ht⟩ := Res.bind_eq_ok.mp ht
    cases ht
    obtain ⟨s, f1, ho, -⟩ := opt i t e1
    rw [f1, Res.ok_bind]
    exact ⟨_, rfl, h.set i (isSeek_sub ho p)⟩
  | pos i =>
    simp only [doIn] at ht ⊢
    obtain ⟨t, e1, ht⟩ := Res.bind_eq_ok.mp ht
    cases ht
    obtain ⟨s, f1, ho, -⟩ := opt i t e1
    rw [f1, Res.ok_bind]
    have hp : isPos s = isPos t := by unfold isPos; rw [ho.start, ho.pos]
    rw [hp]
    exact ⟨_, rfl, h⟩
  | clone i =>
    simp only [doIn] at ht ⊢
    obtain ⟨t, e1, ht⟩ := Res.bind_eq_ok.mp ht
    cases ht
    obtain ⟨s, f1, ho, -⟩ := opt i t e1
    rw [f1, Res.ok_bind]
    exact ⟨_, rfl, h.push ho⟩

/-- Every sequence of commands on a member gives the observations of direct access to its bytes. -/
theorem doIns_sub {base : List Byte} {off len : Nat} (hb : off + len ≤ base.length) (cs : List InCmd) : ∀ {ss ts : List InS} {ps : List Nat},
    SubAll ss ts base off len → InAll ts (slice base off len) ps → ∀ {rs}, inCmds (slice base off len) ps cs = some rs → doIns ss cs = .ok rs := by
  induction cs with
  | nil => intro ss ts ps _ _ rs hr; simp only [inCmds, Option.some.injEq] at hr; subst hr; rfl
  | cons c cs ih =>
    intro ss ts ps hs ht rs hr
    simp only [inCmds, Option.bind_eq_some_iff, Option.map_eq_some_iff] at hr
    obtain ⟨⟨r, ps'⟩, h1, rs', h2, rfl⟩ := hr
    obtain ⟨ts', h3, h4⟩ := doIn_spec ht c h1
    have hc : ∀ i n, c = .bytes i n → ∀ t, ts[i]? = some t → isPos t + n ≤ len := by
      intro i n e t hti
      subst e
      simp only [inCmd, Option.bind_eq_some_iff] at h1
      obtain ⟨p, hp, h1⟩ := h1
      split at h1
      · rename_i hle
        rw [slice_len hb] at hle
        have := (ht.2 i t p hti hp).pos
        unfold isPos
        omega
      · cases h1
    obtain ⟨ss', h5, h6⟩ := doIn_sub hb hs c hc h3
    simp only [doIns]
    rw [h5, Res.ok_bind, ih h6 h4 h2, Res.ok_bind]

theorem isReadBytes_past {s t : InS} {base : List Byte} {off len p : Nat} (hb : off + len ≤ base.length) (h : SubOK s t base off len) (ht : InOK t (slice base off len) p) {n : Nat} (hn : p + n > len) :
    isReadBytes s n = .raise .eof := by
  have hbuf := congrArg List.length ht.buf
  unfold slice at hbuf
  rw [List.length_take, List.length_drop, List.length_take, List.length_drop] at hbuf
  have hp := ht.pos
  have hps : isPos s = p := by unfold isPos; rw [h.start, h.pos, hp]
  unfold isReadBytes
  rw [if_neg (by rw [h.buf, h.pos]; omega), hps, h.file]
  simp only [inSeekI, readI]
  rw [if_pos hn]
  rfl

/-- Reading a block past the end of the member. -/
theorem doIns_past {base : List Byte} {off len : Nat} (hb : off + len ≤ base.length) (cs : List InCmd) (i n : Nat) : ∀ {ss ts : List InS} {ps : List Nat},
    SubAll ss ts base off len → InAll ts (slice base off len) ps → ∀ {rs p}, inCmds (slice base off len) ps (cs ++ [.pos i]) = some rs → rs.getLast? = some (.pos p) → p + n > len →
    doIns ss (cs ++ [.bytes i n]) = .raise .eof := by
  induction cs with
  | nil =>
    intro ss ts ps hs ht rs p hr hl hn
    simp only [List.nil_append, inCmds, Option.bind_eq_some_iff, Option.map_eq_some_iff, inCmd] at hr
    obtain ⟨r, ⟨q, hq, hr1⟩, h2⟩ := hr
    obtain ⟨w, hw, h2⟩ := h2
    cases hw
    subst hr1 h2
    cases hl
    obtain ⟨t, hget, hok⟩ := ht.get hq
    obtain ⟨s, hsget, hsub⟩ := hs.get hget
    simp only [List.nil_append, doIns, doIn, hsget, Res.ofOption, Res.ok_bind, isReadBytes_past hb hsub hok hn, Res.raise_bind]
  | cons c cs ih =>
    intro ss ts ps hs ht rs p hr hl hn
    simp only [List.cons_append, inCmds, Option.bind_eq_some_iff, Option.map_eq_some_iff] at hr
    obtain ⟨⟨r, ps'⟩, h1, rs', h2, rfl⟩ := hr
    obtain ⟨ts', h3, h4⟩ := doIn_spec ht c h1
    have hc : ∀ i n, c = .bytes i n → ∀ t, ts[i]? = some t → isPos t + n ≤ len := by
      intro i n e t hti
      subst e
      simp only [inCmd, Option.bind_eq_some_iff] at h1
      obtain ⟨p, hp, h1⟩ := h1
      split at h1
      · rename_i hle
        rw [slice_len hb] at hle
        have := (ht.2 i t p hti hp).pos
        unfold isPos
        omega
      · cases h1
    obtain ⟨ss', h5, h6⟩ := doIn_sub hb hs c hc h3
    have hl' : rs'.getLast? = some (.pos p) := by
      cases rs' with
      | nil => cases cs <;> simp [inCmds, Option.bind_eq_some_iff] at h2
      | cons a b => rw [List.getLast?_cons_cons] at hl; exact hl
    simp only [List.cons_append, doIns]
    rw [h5, Res.ok_bind, ih h6 h4 h2 hl' hn, Res.raise_bind]

theorem openAll (base : List Byte) (off len : Nat) : SubAll [isOpen (.cmpd base off len)] [isOpen (.fs (slice base off len))] base off len ∧
    InAll [isOpen (.fs (slice base off len))] (slice base off len) [0] := by
  constructor
  · refine ⟨rfl, fun i s t hs ht => ?_⟩
    cases i with
    | zero => cases hs; cases ht; exact ⟨rfl, rfl, rfl, rfl, rfl⟩
    | succ i => cases hs
  · refine ⟨rfl, fun i s p hs hp => ?_⟩
    cases i with
    | zero => cases hs; cases hp; exact isOpen_spec (f := .fs (slice base off len)) trivial
    | succ i => cases hs

/-! ### What the writer writes -/

theorem put_seq (old a s : List Byte) : put (a ++ old.drop a.length, a.length) s = ((a ++ s) ++ old.drop (a ++ s).length, (a ++ s).length) := by
  unfold put writeAt
  simp only [List.length_append, Prod.mk.injEq, and_true]
  rw [List.take_left, List.drop_append, List.drop_eq_nil_of_le (by omega), List.nil_append, List.drop_drop]
  congr 2
  omega

/-- The directory with the given offsets. -/
def dirBytes : List Nat → List Name → List Byte
  | o :: os, id :: ids => beBytes 8 o ++ (vstring id ++ dirBytes os ids)
  | _, _ => []

theorem dirBytes_length : ∀ (ids : List Name) (os os' : List Nat), os.length = ids.length → os'.length = ids.length → (dirBytes os ids).length = (dirBytes os' ids).length := by
  intro ids
  induction ids with
  | nil => intro os os' _ _; cases os <;> cases os' <;> rfl
  | cons id ids ih =>
    intro os os' h h'
    cases os with
    | nil => cases h
    | cons o os =>
      cases os' with
      | nil => cases h'
      | cons o' os' =>
        simp only [List.length_cons, Nat.add_right_cancel_iff] at h h'
        simp only [dirBytes, List.length_append, beBytes_length, ih os os' h h']

/-- Where the entries of the directory are. -/
def dirPos (p : Nat) : List Name → List Nat
  | [] => []
  | id :: ids => p :: dirPos (p + 8 + (vstring id).length) ids

theorem writeDir_spec (old : List Byte) : ∀ (ids : List Name) (a : List Byte),
    writeDir (a ++ old.drop a.length, a.length) ids =
      (((a ++ dirBytes (List.replicate ids.length 0) ids) ++ old.drop (a ++ dirBytes (List.replicate ids.length 0) ids).length,
        (a ++ dirBytes (List.replicate ids.length 0) ids).length), dirPos a.length ids) := by
  intro ids
  induction ids with
  | nil => intro a; simp [writeDir, dirBytes, dirPos]
  | cons id ids ih =>
    intro a
    simp only [writeDir, put_seq, ih]
    have : a ++ beBytes 8 0 ++ vstring id ++ dirBytes (List.replicate ids.length 0) ids = a ++ dirBytes (List.replicate (id :: ids).length 0) (id :: ids) := by
      simp only [List.length_cons, List.replicate_succ, dirBytes, List.append_assoc]
    rw [this]
    simp only [Prod.mk.injEq, true_and, dirPos, List.cons.injEq]
    rw [List.length_append, List.length_append, beBytes_length]

theorem copyFile_spec (old : List Byte) : ∀ (fuel : Nat) (src a : List Byte), src.length ≤ fuel →
    copyFile fuel (a ++ old.drop a.length, a.length) src = ((a ++ src) ++ old.drop (a ++ src).length, (a ++ src).length) := by
  intro fuel
  induction fuel with
  | zero =>
    intro src a h
    have : src = [] := List.length_eq_zero_iff.mp (by omega)
    subst this
    simp [copyFile]
  | succ fuel ih =>
    intro src a h
    simp only [copyFile]
    split
    · rename_i e; subst e; simp
    · rename_i hne
      have : 0 < src.length := List.length_pos_iff.mpr hne
      rw [put_seq, ih _ _ (by rw [List.length_drop]; omega)]
      simp only [List.append_assoc, List.take_append_drop]

/-- Where the files' data is. -/
def dataPos (p : Nat) : List (List Byte) → List Nat
  | [] => []
  | c :: cs => p :: dataPos (p + c.length) cs

theorem writeData_spec (d : Disk) (old : List Byte) : ∀ (ids : List Name) (cs : List (List Byte)) (a : List Byte), ids.map d.get = cs.map some →
    writeData d (a ++ old.drop a.length, a.length) ids = .ok (((a ++ cs.flatten) ++ old.drop (a ++ cs.flatten).length, (a ++ cs.flatten).length), dataPos a.length cs) := by
  intro ids
  induction ids with
  | nil =>
    intro cs a h
    cases cs with
    | nil => simp [writeData, dataPos]
    | cons c cs => cases h
  | cons id ids ih =>
    intro cs a h
    cases cs with
    | nil => cases h
    | cons c cs =>
      simp only [List.map_cons, List.cons.injEq] at h
      simp only [writeData, Sis.openInput, h.1, Res.ok_bind]
      rw [copyFile_spec old c.length c a (Nat.le_refl _), ih cs (a ++ c) h.2, Res.ok_bind]
      simp only [List.append_assoc, List.flatten_cons, dataPos, List.length_append]

theorem patch_spec : ∀ (ids : List Name) (os zs : List Nat) (a r : List Byte), os.length = ids.length → zs.length = ids.length →
    patch (a ++ (dirBytes zs ids ++ r)) (dirPos a.length ids) os = a ++ (dirBytes os ids ++ r) := by
  intro ids
  induction ids with
  | nil => intro os zs a r h h'; cases os <;> cases zs <;> first | rfl | cases h | cases h'
  | cons id ids ih =>
    intro os zs a r h h'
    cases os with
    | nil => cases h
    | cons o os =>
      cases zs with
      | nil => cases h'
      | cons z zs =>
        simp only [List.length_cons, Nat.add_right_cancel_iff] at h h'
        simp only [dirPos, patch, dirBytes]
        have hw : writeAt (a ++ (beBytes 8 z ++ (vstring id ++ dirBytes zs ids) ++ r)) a.length (beBytes 8 o) =
            (a ++ (beBytes 8 o ++ vstring id)) ++ (dirBytes zs ids ++ r) := by
          unfold writeAt
          rw [List.take_left, beBytes_length]
          have : a ++ (beBytes 8 z ++ (vstring id ++ dirBytes zs ids) ++ r) = (a ++ beBytes 8 z) ++ (vstring id ++ (dirBytes zs ids ++ r)) := by
            simp only [List.append_assoc]
          rw [this, List.drop_left' (by rw [List.length_append, beBytes_length])]
          simp only [List.append_assoc]
        have hl : a.length + 8 + (vstring id).length = (a ++ (beBytes 8 o ++ vstring id)).length := by
          simp only [List.length_append, beBytes_length]; omega
        rw [hw, hl, ih os zs _ r h h']
        simp only [List.append_assoc]

theorem dataPos_length : ∀ (cs : List (List Byte)) (p : Nat), (dataPos p cs).length = cs.length := by
  intro cs
  induction cs with
  | nil => intro p; rfl
  | cons c cs ih => intro p; simp [dataPos, ih]

/-! ### Reading it back -/

theorem exact_entry (o : Nat) (id : Name) (ho : o < 2 ^ 63) (hid : id.length < 2 ^ 32) : Exact readEntry (beBytes 8 o ++ vstring id) ((o : Int), id) := by
  have hs : toS 8 o = (o : Int) := by unfold toS; rw [if_pos (by omega)]
  have := (exact_be 8 o (by omega)).bind (f := fun x l => rdString l >>= fun n => .ok ((toS 8 x, n.1), n.2)) ((exact_string id hid).map fun n => (toS 8 o, n))
  rw [hs] at this
  exact this

theorem readDir_spec : ∀ (ids : List Name) (os : List Nat) (r : List Byte), os.length = ids.length → (∀ o ∈ os, o < 2 ^ 63) → (∀ id ∈ ids, id.length < 2 ^ 32) →
    rdMany readEntry ids.length (dirBytes os ids ++ r) = .ok (List.zip (os.map Int.ofNat) ids, r) := by
  intro ids
  induction ids with
  | nil => intro os r h _ _; cases os with | nil => rfl | cons o os => cases h
  | cons id ids ih =>
    intro os r h ho hid
    cases os with
    | nil => cases h
    | cons o os =>
      simp only [List.length_cons, Nat.add_right_cancel_iff] at h
      simp only [dirBytes, List.length_cons, rdMany]
      have := (exact_entry o id (ho o (by simp)) (hid id (by simp))).full (dirBytes os ids ++ r)
      rw [List.append_assoc, List.append_assoc] at *
      rw [this, Res.ok_bind, ih os r h (fun x hx => ho x (by simp [hx])) (fun x hx => hid x (by simp [hx])), Res.ok_bind]
      rfl

/-- The entries are the members, with offset and length. -/
def members (p : Nat) : List Name → List (List Byte) → List (Name × Int × Int)
  | id :: ids, c :: cs => (id, (p : Int), (c.length : Int)) :: members (p + c.length) ids cs
  | _, _ => []

theorem lengths_spec : ∀ (ids : List Name) (cs : List (List Byte)) (p : Nat), cs.length = ids.length →
    lengths ((p + cs.flatten.length : Nat) : Int) (List.zip ((dataPos p cs).map Int.ofNat) ids) = members p ids cs := by
  intro ids
  induction ids with
  | nil => intro cs p h; cases cs with | nil => rfl | cons c cs => cases h
  | cons id ids ih =>
    intro cs p h
    cases cs with
    | nil => cases h
    | cons c cs =>
      simp only [List.length_cons, Nat.add_right_cancel_iff] at h
      cases ids with
      | nil =>
        cases cs with
        | nil =>
          simp only [dataPos, List.map_cons, List.map_nil, List.zip_cons_cons, List.zip_nil_right, lengths, members, List.flatten_cons, List.flatten_nil, List.append_nil]
          simp only [Int.ofNat_eq_natCast, List.cons.injEq, Prod.mk.injEq, true_and, and_true]
          omega
        | cons _ _ => cases h
      | cons id' ids =>
        cases cs with
        | nil => cases h
        | cons c' cs =>
          have := ih (c' :: cs) (p + c.length) h
          simp only [List.flatten_cons, List.length_append] at this
          simp only [dataPos, List.map_cons, List.zip_cons_cons, lengths, members, List.flatten_cons, List.length_append] at this ⊢
          rw [show p + (c.length + (c'.length + cs.flatten.length)) = p + c.length + (c'.length + cs.flatten.length) by omega, this]
          simp only [Int.ofNat_eq_natCast, List.cons.injEq, Prod.mk.injEq, true_and, and_true]
          omega

theorem members_find : ∀ (ids : List Name) (cs : List (List Byte)) (p : Nat) (pre post : List Byte), cs.length = ids.length → pre.length = p → ids.Pairwise (· ≠ ·) →
    ∀ (id : Name) (c : List Byte), (id, c) ∈ List.zip ids cs → ∃ o : Nat, ((members p ids cs).reverse.find? fun e => e.1 == id) = some (id, (o : Int), (c.length : Int)) ∧
      o + c.length ≤ (pre ++ (cs.flatten ++ post)).length ∧ slice (pre ++ (cs.flatten ++ post)) o c.length = c := by
  intro ids
  induction ids with
  | nil => intro cs p pre post _ _ _ id c h; simp at h
  | cons i ids ih =>
    intro cs p pre post h hp hd id c hm
    cases cs with
    | nil => cases h
    | cons x cs =>
      simp only [List.length_cons, Nat.add_right_cancel_iff] at h
      rw [List.pairwise_cons] at hd
      simp only [members, List.reverse_cons, List.find?_append]
      simp only [List.zip_cons_cons, List.mem_cons, Prod.mk.injEq] at hm
      rcases hm with ⟨rfl, rfl⟩ | hm
      · have hnone : ((members (p + c.length) ids cs).reverse.find? fun e => e.1 == id) = none := by
          rw [List.find?_eq_none]
          intro e he
          rw [List.mem_reverse] at he
          have hsub : ∀ (ids : List Name) (cs : List (List Byte)) (q : Nat) (e : Name × Int × Int), e ∈ members q ids cs → e.1 ∈ ids := by
            intro ids
            induction ids with
            | nil => intro cs q e he; cases cs <;> cases he
            | cons i ids ih =>
              intro cs q e he
              cases cs with
              | nil => cases he
              | cons c cs =>
                simp only [members, List.mem_cons] at he
                rcases he with rfl | he
                · simp
                · exact List.mem_cons_of_mem _ (ih cs _ e he)
          have := hd.1 _ (hsub _ _ _ e he)
          simpa using fun e' => this e'.symm
        rw [hnone]
        refine ⟨p, by simp, ?_, ?_⟩
        · simp only [List.length_append, List.flatten_cons]; omega
        · unfold slice
          rw [← hp, List.drop_left, List.flatten_cons, List.append_assoc, List.take_left]
      · obtain ⟨o, h1, h2, h3⟩ := ih cs (p + x.length) (pre ++ x) post h (by rw [List.length_append, hp]) hd.2 id c hm
        refine ⟨o, by rw [h1]; rfl, ?_, ?_⟩
        · simpa [List.length_append, List.flatten_cons, Nat.add_assoc] using h2
        · simpa [List.flatten_cons] using h3

end Ferret.Compound
