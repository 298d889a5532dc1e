import Verif.Model.MultiDocEnum
import Verif.Model.Readers
import Verif.Props.C22
import Verif.Props.C23

/-! C24: the documents and positions of a term over several segments. -/

namespace Ferret.Props
open Ferret Ferret.Expand Ferret.Dict Ferret.MTE Ferret.Post Ferret.MDE

/-! ### What is enumerated -/

/-- A segment: what was written, its files, its deletions and its number of documents. -/
structure PSeg where
  sub : Sub
  ii : Nat
  si : Nat
  fields : List (Nat × List (Term × List Posting))
  files : SegFiles
  del : Option BitVector.BV
  dead : Nat → Bool
  size : Nat

/-- The segment was written and opened, and its documents are numbered below its size. -/
structure OpenPSeg (g : PSeg) : Prop where
  seg : Segment g.ii g.si g.fields
  siPos : 0 < g.si
  flushed : flush g.ii g.si g.fields = .ok g.files
  tisLen : g.files.dict.tis.length < 2 ^ 64
  tixLen : g.files.dict.tix.length < 2 ^ 64
  opened : sfiOpen g.files.dict = .ok g.sub.sfi
  tis : g.sub.tis = g.files.dict.tis
  del : Deletes g.del g.dead
  docs : ∀ x ∈ g.fields, ∀ y ∈ x.2, ∀ p ∈ y.2, p.doc < g.size

/-- The number of documents in the segments before segment `i`. -/
def baseOf (segs : List PSeg) (i : Nat) : Nat := ((segs.take i).map (·.size)).sum

def shiftBy (b : Nat) (ps : List Posting) : List Posting := ps.map fun p => { p with doc := b + p.doc }

/-- What was written of the term in segment `i`. -/
def writtenIn (mr : MR) (segs : List PSeg) (f : Int) (t : Term) (i : Nat) : Option (List Posting) :=
  segs[i]?.bind fun g => (postingsOf g.fields (numberIn mr i f) t).map fun ps => ps.filter fun p => !g.dead p.doc

/-- The documents of the term: those of each segment that are not deleted, shifted by its base. -/
def merged (mr : MR) (segs : List PSeg) (f : Int) (t : Term) : List Posting :=
  (List.range segs.length).flatMap fun i => shiftBy (baseOf segs i) ((writtenIn mr segs f t i).getD [])

/-- Some segment has the term, perhaps with deleted documents only. -/
def present (mr : MR) (segs : List PSeg) (f : Int) (t : Term) : Bool := (List.range segs.length).any fun i => (writtenIn mr segs f t i).isSome

/-! ### What an enumerator should do -/

/-- The documents and positions not yet seen; `ended`: nothing has been sought, or the end has been
reported; `fresh`: no call has been made. -/
structure MPCur where
  cur : PCur
  ended : Bool
  fresh : Bool

/-- As for one segment (`PCur.step`), over the merged documents. -/
def MPCur.step (mr : MR) (segs : List PSeg) (c : MPCur) : PostOp → MPCur × PostOut
  | .seek f t => (⟨⟨merged mr segs f t, []⟩, !present mr segs f t, false⟩, .done)
  | .seekTe f t => if present mr segs f t then (⟨⟨merged mr segs f t, []⟩, false, false⟩, .done) else ({ c with fresh := false }, .done)
  | .next => let r := PCur.take c.cur.rest; (⟨r.1, c.cur.rest.isEmpty, false⟩, r.2)
  | .skipTo n => let l := c.cur.rest.dropWhile fun p => decide ((p.doc : Int) < n); (⟨(PCur.take l).1, l.isEmpty, false⟩, (PCur.take l).2)
  | .read n => (⟨⟨c.cur.rest.drop n, c.cur.left⟩, c.ended || decide (c.cur.rest.length < n), false⟩, .docs ((c.cur.rest.take n).map fun p => ((p.doc : Int), (p.freq : Int))))
  | .position => (⟨⟨c.cur.rest, c.cur.left.tail⟩, c.ended, false⟩, .pos (c.cur.left.head?.getD (-1)))

def MPCur.run (mr : MR) (segs : List PSeg) : MPCur → List PostOp → List PostOut
  | _, [] => []
  | c, op :: ops => (c.step mr segs op).2 :: MPCur.run mr segs (c.step mr segs op).1 ops

/-- The calls for which this holds. A field that is sought is one of the reader. Documents: a term that
is in no segment is sought only when there is no current segment (see the first witness below), and at
least one document is read (see the second). Positions: a term is sought once (see the third), and
positions are read only when there is a current segment. `skip_to` needs skip intervals of at least 3. -/
def MPCur.usable (mr : MR) (segs : List PSeg) (isPos : Bool) (c : MPCur) : PostOp → Prop
  | .seek f t => FieldOf mr segs.length f ∧ (if isPos then c.fresh = true else present mr segs f t = true ∨ c.ended = true)
  | .seekTe f _ => FieldOf mr segs.length f ∧ (isPos = true → c.fresh = true)
  | .next => True
  | .skipTo _ => ∀ g ∈ segs, 3 ≤ g.si
  | .read n => isPos = false ∧ 0 < n
  | .position => isPos = true ∧ c.ended = false

def MPCur.Usable (mr : MR) (segs : List PSeg) (isPos : Bool) : MPCur → List PostOp → Prop
  | _, [] => True
  | c, op :: ops => c.usable mr segs isPos op ∧ MPCur.Usable mr segs isPos (c.step mr segs op).1 ops

/-! ### What the enumerator does -/

def mdocOut (r : MTDE × Bool) : Res (Option (Int × Int)) := if r.2 then mtdeDoc r.1 >>= fun d => .ok (some d) else .ok none

def mtdeStep (mr : MR) (m : MTDE) : PostOp → Res (MTDE × PostOut)
  | .seek f t => mtdeSeek mr m f t >>= fun m => .ok (m, .done)
  | .seekTe f t => mteNew mr f none >>= fun te => mteSkipTo mr te t >>= fun r =>
    if r.2 = some t then mtdeSeekTe m r.1.tis >>= fun m => .ok (m, .done) else .ok (m, .done)
  | .next => mtdeNext (m.state.length + 2) m >>= fun r => mdocOut r >>= fun d => .ok (r.1, .doc d)
  | .skipTo n => mtdeSkipTo n (m.state.length + 2) m >>= fun r => mdocOut r >>= fun d => .ok (r.1, .doc d)
  | .read n => mtdeRead (2 * m.state.length + 2) n m >>= fun r => .ok (r.1, .docs r.2)
  | .position => mtdePosition m >>= fun r => .ok (r.1, .pos r.2)

def mtdeRun (mr : MR) : MTDE → List PostOp → Res (List PostOut)
  | _, [] => .ok []
  | m, op :: ops => mtdeStep mr m op >>= fun r => mtdeRun mr r.1 ops >>= fun os => .ok (r.2 :: os)

/-! ### Proof: the segments -/

def PSeg.dict (g : PSeg) : List (Nat × List (Term × TI)) := (flushFields g.si [] [] g.fields).2.2
def PSeg.frq (g : PSeg) : List Byte := (flushFields g.si [] [] g.fields).1
def PSeg.prx (g : PSeg) : List Byte := (flushFields g.si [] [] g.fields).2.1
def PSeg.seg (g : PSeg) : Seg := ⟨g.sub, g.dict⟩

structure PSegOK (g : PSeg) : Prop where
  seg : Segment g.ii g.si g.fields
  siPos : 0 < g.si
  skip : g.sub.sfi.skipInterval = g.si
  frq : g.files.frq = g.frq
  prx : g.files.prx = g.prx
  dict : DictOK g.sub.sfi g.sub.tis g.dict
  written : WrittenSeg g.seg
  del : Deletes g.del g.dead
  docs : ∀ x ∈ g.fields, ∀ y ∈ x.2, ∀ p ∈ y.2, p.doc < g.size

theorem OpenPSeg.ok {g : PSeg} (h : OpenPSeg g) : PSegOK g := by
  have hw := flushed_dict h.seg h.siPos
  obtain ⟨fs, e1, h1⟩ := dict_spec _ _ _ hw.fit
  have hf := h.flushed
  unfold flush at hf
  rw [if_neg (by have := h.siPos; omega)] at hf
  dsimp only at hf
  rw [e1, Res.ok_bind] at hf
  simp only [Res.ok.injEq] at hf
  have hd : g.files.dict = fs := by rw [← hf]
  obtain ⟨sfi, e2, e3, -, e4⟩ := h1 (by rw [← hd]; exact h.tisLen) (by rw [← hd]; exact h.tixLen)
  have ho := h.opened
  rw [hd, e2] at ho
  cases ho
  have ht := h.tis
  rw [hd] at ht
  refine ⟨h.seg, h.siPos, e3, by rw [← hf]; rfl, by rw [← hf]; rfl, ?_, ⟨g.ii, g.si, fs, hw, e1, by rw [← hd]; exact h.tisLen, by rw [← hd]; exact h.tixLen, e2, ht⟩, h.del, h.docs⟩
  intro f
  rw [ht]
  exact ⟨hw.asc f, e4 f⟩

/-- The enumerator of a segment stands where the cursor does. -/
def SubRel (g : PSeg) (isPos : Bool) (s : STDE) (c : PCur) : Prop := PRel g.sub.sfi g.sub.tis g.dict g.frq g.prx g.si g.dead isPos ⟨tirOpen, s⟩ c

theorem subRel_new {g : PSeg} (h : PSegOK g) (isPos : Bool) : SubRel g isPos (stdeNew isPos g.si g.del g.files.frq g.files.prx) ⟨[], []⟩ :=
  ⟨readerOK_open h.dict, rfl, h.del, Or.inr ⟨h.frq, h.prx, rfl, rfl, Int.le_refl _, fun _ => ⟨Int.le_refl _, rfl⟩, rfl⟩⟩

theorem subRel_next {g : PSeg} (h : PSegOK g) {isPos : Bool} {s : STDE} {c : PCur} (hs : SubRel g isPos s c) :
    ∃ s', Post.next s = .ok (s', !c.rest.isEmpty) ∧ SubRel g isPos s' (PCur.take c.rest).1 ∧ ∀ q rs, c.rest = q :: rs → docFreqOf s' = .ok ((q.doc : Int), (q.freq : Int)) := by
  obtain ⟨x', e1, e2⟩ := postStep_spec h.seg h.siPos h.skip h.dict hs .next rfl
  simp only [postStep] at e1
  obtain ⟨⟨s', b⟩, e3, e1⟩ := Res.bind_eq_ok.1 e1
  obtain ⟨d, e4, e1⟩ := Res.bind_eq_ok.1 e1
  simp only [Res.ok.injEq, Prod.mk.injEq] at e1
  obtain ⟨rfl, e5⟩ := e1
  simp only [PCur.step] at e5 e2
  unfold docOut at e4
  cases hc : c.rest with
  | nil =>
    rw [hc] at e5 e2
    simp only [PCur.take, PostOut.doc.injEq] at e5
    subst e5
    cases b with
    | true =>
      rw [if_pos rfl] at e4
      obtain ⟨d, -, e4⟩ := Res.bind_eq_ok.1 e4
      cases e4
    | false => exact ⟨s', e3, e2, fun q rs hq => nomatch hq⟩
  | cons q rs =>
    rw [hc] at e5 e2
    simp only [PCur.take, PostOut.doc.injEq] at e5
    subst e5
    cases b with
    | false => rw [if_neg (by simp)] at e4; cases e4
    | true =>
      rw [if_pos rfl] at e4
      obtain ⟨d, e6, e4⟩ := Res.bind_eq_ok.1 e4
      cases e4
      refine ⟨s', e3, e2, fun q' rs' hq => ?_⟩
      cases hq
      exact e6

theorem subRel_skipTo {g : PSeg} (h : PSegOK g) {isPos : Bool} {s : STDE} {c : PCur} (hs : SubRel g isPos s c) (hsi : 3 ≤ g.si) (n : Int) {l : List Posting}
    (hl : (c.rest.dropWhile fun p => decide ((p.doc : Int) < n)) = l) :
    ∃ s', Post.skipTo s n = .ok (s', !l.isEmpty) ∧ SubRel g isPos s' (PCur.take l).1 ∧ ∀ q rs, l = q :: rs → docFreqOf s' = .ok ((q.doc : Int), (q.freq : Int)) := by
  obtain ⟨x', e1, e2⟩ := postStep_spec h.seg h.siPos h.skip h.dict hs (.skipTo n) (by simpa [usable] using hsi)
  simp only [postStep] at e1
  obtain ⟨⟨s', b⟩, e3, e1⟩ := Res.bind_eq_ok.1 e1
  obtain ⟨d, e4, e1⟩ := Res.bind_eq_ok.1 e1
  simp only [Res.ok.injEq, Prod.mk.injEq] at e1
  obtain ⟨rfl, e5⟩ := e1
  simp only [PCur.step] at e5 e2
  rw [hl] at e5 e2
  unfold docOut at e4
  cases l with
  | nil =>
    simp only [PCur.take, PostOut.doc.injEq] at e5
    subst e5
    cases b with
    | true =>
      rw [if_pos rfl] at e4
      obtain ⟨d, -, e4⟩ := Res.bind_eq_ok.1 e4
      cases e4
    | false => exact ⟨s', e3, e2, fun q rs hq => nomatch hq⟩
  | cons q rs =>
    simp only [PCur.take, PostOut.doc.injEq] at e5
    subst e5
    cases b with
    | false => rw [if_neg (by simp)] at e4; cases e4
    | true =>
      rw [if_pos rfl] at e4
      obtain ⟨d, e6, e4⟩ := Res.bind_eq_ok.1 e4
      cases e4
      refine ⟨s', e3, e2, fun q' rs' hq => ?_⟩
      cases hq
      exact e6

theorem subRel_read {g : PSeg} (h : PSegOK g) {s : STDE} {c : PCur} (hs : SubRel g false s c) (n : Nat) :
    ∃ s', Post.read s n = .ok (s', (c.rest.take n).map fun p => ((p.doc : Int), (p.freq : Int))) ∧ SubRel g false s' ⟨c.rest.drop n, c.left⟩ := by
  obtain ⟨x', e1, e2⟩ := postStep_spec h.seg h.siPos h.skip h.dict hs (.read n) rfl
  simp only [postStep] at e1
  obtain ⟨⟨s', b⟩, e3, e1⟩ := Res.bind_eq_ok.1 e1
  simp only [Res.ok.injEq, Prod.mk.injEq] at e1
  obtain ⟨rfl, e5⟩ := e1
  simp only [PCur.step, PostOut.docs.injEq] at e5 e2
  subst e5
  exact ⟨s', e3, e2⟩

theorem subRel_position {g : PSeg} (h : PSegOK g) {s : STDE} {c : PCur} (hs : SubRel g true s c) :
    ∃ s', nextPosition s = .ok (s', c.left.head?.getD (-1)) ∧ SubRel g true s' ⟨c.rest, c.left.tail⟩ := by
  obtain ⟨x', e1, e2⟩ := postStep_spec h.seg h.siPos h.skip h.dict hs .position rfl
  simp only [postStep] at e1
  obtain ⟨⟨s', b⟩, e3, e1⟩ := Res.bind_eq_ok.1 e1
  simp only [Res.ok.injEq, Prod.mk.injEq] at e1
  obtain ⟨rfl, e5⟩ := e1
  simp only [PCur.step, PostOut.pos.injEq] at e5 e2
  subst e5
  exact ⟨s', e3, e2⟩

theorem subRel_seek {g : PSeg} (h : PSegOK g) {isPos : Bool} {s : STDE} {c : PCur} (hs : SubRel g isPos s c) (hcnt : isPos = true → s.prxCnt = 0) {t : Term} {ti ti' : TI} {ps : List Posting}
    (l2 : Loc g.frq g.prx g.si ti ps) (l3 : PsOK ps) (e3 : seen g.sub.sfi.skipInterval (t, ti') = seen g.sub.sfi.skipInterval (t, ti)) :
    ∃ s', seekSub s ti' = .ok s' ∧ SubRel g isPos s' ⟨ps.filter fun p => !g.dead p.doc, []⟩ ∧ (isPos = true → s'.prxCnt = 0) := by
  unfold seen at e3
  simp only [Prod.mk.injEq, true_and] at e3
  obtain ⟨q1, q2, q3, q4⟩ := e3
  rw [h.skip] at q4
  have hsi := h.siPos
  obtain ⟨g1, g2, g3, g4⟩ : s.frq = g.frq ∧ s.prx = g.prx ∧ s.si = g.si ∧ 0 ≤ s.count := by
    rcases hs.st with ⟨fp, pp, ps, c, -, hc, -⟩ | ⟨k1, k2, k3, -, k5, -⟩
    · exact ⟨hc.frqF, hc.prxF, hc.siF, by have := hc.count; dsimp only at this; rw [this]; omega⟩
    · exact ⟨k1, k2, k3, k5⟩
  have hkind : s.isPos = isPos := hs.kind
  have hat : Post.At g.frq g.prx g.si ti.frqPtr ti.prxPtr ps := ⟨l3, hsi, l2.frqAt, l2.frqLe, l2.prxAt, l2.prxLe⟩
  have hdf := l2.docFreq
  have hcore : ∀ s', s'.frq = g.frq → s'.prx = g.prx → s'.si = g.si → s'.count = 0 → s'.docFreq = (ti'.docFreq : Int) → s'.docNum = 0 → s'.skipDoc = 0 → s'.skipCount = 0 →
      s'.numSkips = Int.tdiv ti'.docFreq g.si → s'.frqPtr = ti'.frqPtr → s'.prxPtr = ti'.prxPtr → s'.skipPtr = ti'.frqPtr + ti'.skip → s'.frqAt = ti'.frqPtr → s'.haveSkipped = false →
      Core g.frq g.prx g.si ti.frqPtr ti.prxPtr ps s' 0 ∧ SkOK s' 0 := by
    intro s' k1 k2 k3 k4 k5 k6 k7 k8 k9 k10 k11 k12 k13 k14
    refine ⟨⟨k1, k2, k3, Nat.zero_le _, k4, by rw [k5, q1, hdf], by rw [k6, D_zero]; rfl, by rw [k13, q2, F_zero]; rfl, ?_, 0, k8, Nat.zero_le _, ?_, ?_, ?_, fun _ => ⟨rfl, fun hle => ?_⟩, ?_⟩, ?_⟩
    · rw [k9, q1, hdf, Int.tdiv_eq_ediv_of_nonneg (by omega)]; rfl
    · rw [k7, Nat.zero_mul, Nat.zero_sub, D_zero]; rfl
    · rw [k10, q2, Nat.zero_mul, Nat.zero_sub, F_zero]; rfl
    · rw [k11, q3, Nat.zero_mul, Nat.zero_sub, P_zero]; rfl
    · rw [q1, if_pos (by omega), if_pos (by omega)] at q4
      simp only [Option.some.injEq] at q4
      rw [k12, q2, q4, l2.skip]
    · rw [k14]; exact fun hh => nomatch hh
    · unfold SkOK
      rw [k8, k3]
      omega
  unfold seekSub
  by_cases hpos : s.isPos = true
  · rw [if_pos hpos]
    have hc0 := hcnt (hkind.symm.trans hpos)
    simp only [stpeSeekTi, seekTi]
    rw [if_neg (show ¬ s.si = 0 by omega)]
    simp only [Res.ok_bind]
    refine ⟨_, rfl, ⟨hs.reader, hkind, hs.del, Or.inl ⟨ti.frqPtr, ti.prxPtr, ps, 0, hat, ?_, ?_, fun _ => ⟨?_, ?_, ?_, fun y hy => nomatch hy⟩, rfl⟩⟩, fun _ => hc0⟩
    · apply And.left; apply hcore <;> first | assumption | rfl | (dsimp only; rw [g3])
    · apply And.right; apply hcore <;> first | assumption | rfl | (dsimp only; rw [g3])
    · show s.prxCnt.toNat = 0
      rw [hc0]; rfl
    · show ti'.prxPtr + 0 = ti.prxPtr + 0
      rw [q3]
    · show List.drop ti'.prxPtr g.prx = [] ++ List.drop (ti.prxPtr + 0) g.prx
      rw [q3]; rfl
  · rw [if_neg hpos]
    simp only [seekTi]
    rw [if_neg (show ¬ s.si = 0 by omega)]
    refine ⟨_, rfl, ⟨hs.reader, hkind, hs.del, Or.inl ⟨ti.frqPtr, ti.prxPtr, ps, 0, hat, ?_, ?_, fun hi => absurd (hkind.trans hi) hpos, rfl⟩⟩, fun hi => absurd (hkind.trans hi) hpos⟩
    · apply And.left; apply hcore <;> first | assumption | rfl | (dsimp only; rw [g3])
    · apply And.right; apply hcore <;> first | assumption | rfl | (dsimp only; rw [g3])

/-! ### Proof: the current segment -/

theorem findOn_spec (state : List Bool) : ∀ (fuel p : Nat), state.length ≤ fuel + p →
    p ≤ findOn state fuel p ∧ (∀ i, p ≤ i → i < findOn state fuel p → state[i]? = some false) ∧ (findOn state fuel p < state.length → state[findOn state fuel p]? = some true) := by
  intro fuel
  induction fuel with
  | zero => intro p h; exact ⟨Nat.le_refl _, fun i h1 h2 => absurd h2 (by unfold findOn; omega), fun h2 => absurd h2 (by unfold findOn; omega)⟩
  | succ fuel ih =>
    intro p h
    unfold findOn
    by_cases hp : state[p]? = some false
    · rw [if_pos hp]
      obtain ⟨h1, h2, h3⟩ := ih (p + 1) (by omega)
      refine ⟨by omega, fun i hi1 hi2 => ?_, h3⟩
      by_cases hip : i = p
      · rw [hip]; exact hp
      · exact h2 i (by omega) hi2
    · rw [if_neg hp]
      refine ⟨Nat.le_refl _, fun i h1 h2 => by omega, fun hlt => ?_⟩
      rw [List.getElem?_eq_getElem hlt] at hp ⊢
      cases hb : state[p] with
      | true => rfl
      | false => rw [hb] at hp; exact absurd rfl hp

/-- The documents to come from the segments from `p` on. -/
def restFrom (segs : List PSeg) (state : List Bool) (curs : Nat → PCur) (p : Nat) : List Posting :=
  (List.range' p (segs.length - p)).flatMap fun i => if state[i]? = some true then shiftBy (baseOf segs i) (curs i).rest else []

theorem restFrom_step {segs : List PSeg} {state : List Bool} {curs : Nat → PCur} {p : Nat} (hp : p < segs.length) :
    restFrom segs state curs p = (if state[p]? = some true then shiftBy (baseOf segs p) (curs p).rest else []) ++ restFrom segs state curs (p + 1) := by
  unfold restFrom
  obtain ⟨k, hk⟩ : ∃ k, segs.length - p = k + 1 := ⟨segs.length - p - 1, by omega⟩
  rw [hk, List.range'_succ, List.flatMap_cons, show segs.length - (p + 1) = k by omega]

theorem restFrom_end {segs : List PSeg} {state : List Bool} {curs : Nat → PCur} {p : Nat} (hp : segs.length ≤ p) : restFrom segs state curs p = [] := by
  unfold restFrom
  rw [show segs.length - p = 0 by omega]
  rfl

theorem restFrom_skip {segs : List PSeg} {state : List Bool} {curs : Nat → PCur} : ∀ (k p : Nat), (∀ i, p ≤ i → i < p + k → state[i]? ≠ some true) →
    restFrom segs state curs p = restFrom segs state curs (p + k) := by
  intro k
  induction k with
  | zero => intro p _; rfl
  | succ k ih =>
    intro p h
    by_cases hp : p < segs.length
    · rw [restFrom_step hp, if_neg (h p (Nat.le_refl _) (by omega)), List.nil_append, ih (p + 1) fun i h1 h2 => h i (by omega) (by omega)]
      congr 1
      omega
    · rw [restFrom_end (by omega), restFrom_end (by omega)]

theorem restFrom_congr {segs : List PSeg} {state : List Bool} {curs curs' : Nat → PCur} {p : Nat} (h : ∀ i, p ≤ i → curs i = curs' i) : restFrom segs state curs p = restFrom segs state curs' p := by
  unfold restFrom
  have : ∀ l : List Nat, (∀ i ∈ l, p ≤ i) → (l.flatMap fun i => if state[i]? = some true then shiftBy (baseOf segs i) (curs i).rest else []) =
      l.flatMap fun i => if state[i]? = some true then shiftBy (baseOf segs i) (curs' i).rest else [] := by
    intro l
    induction l with
    | nil => intro _; rfl
    | cons i l ih =>
      intro hl
      rw [List.flatMap_cons, List.flatMap_cons, ih fun j hj => hl j (List.mem_cons_of_mem _ hj), h i (hl i (List.mem_cons_self ..))]
  exact this _ fun i hi => (List.mem_range'_1.1 hi).1

/-- The parts of the enumerator fit the segments and the cursors. -/
structure DRel (segs : List PSeg) (isPos : Bool) (m : MTDE) (curs : Nat → PCur) : Prop where
  starts : ∀ i, i ≤ segs.length → m.starts[i]? = some (baseOf segs i)
  len : m.state.length = segs.length
  tdesLen : m.tdes.length = segs.length
  subs : ∀ i g, segs[i]? = some g → ∃ s, m.tdes[i]? = some s ∧ SubRel g isPos s (curs i) ∧ ∀ q ∈ (curs i).rest, q.doc < g.size
  ptr : -1 ≤ m.ptr

/-- The documents `R` and the positions `L` are to come. -/
def Stand (segs : List PSeg) (isPos : Bool) (m : MTDE) (curs : Nat → PCur) (R : List Posting) (L : List Int) : Prop :=
  match m.cur with
  | none => R = [] ∧ L = [] ∧ ∀ i : Nat, m.ptr < i → m.state[i]? ≠ some true
  | some p => m.ptr = p ∧ p < segs.length ∧ m.state[p]? = some true ∧ m.base = baseOf segs p ∧ R = restFrom segs m.state curs p ∧ (isPos = true → L = (curs p).left)

/-- What does not change. -/
def Same (m m' : MTDE) : Prop := m'.starts = m.starts ∧ m'.state = m.state ∧ m'.te = m.te

theorem nextTde_spec {segs : List PSeg} {isPos : Bool} {m : MTDE} {curs : Nat → PCur} (h : DRel segs isPos m curs) :
    ∃ m', nextTde m = .ok m' ∧ Same m m' ∧ DRel segs isPos m' curs ∧ m'.tdes = m.tdes ∧
      ((m'.cur = none ∧ restFrom segs m.state curs (m.ptr + 1).toNat = [] ∧ m.ptr ≤ m'.ptr ∧ ∀ i : Nat, m.ptr < i → m.state[i]? ≠ some true) ∨
       ∃ q : Nat, m'.cur = some q ∧ m'.ptr = q ∧ m.ptr < q ∧ q < segs.length ∧ m.state[q]? = some true ∧ m'.base = baseOf segs q ∧
         restFrom segs m.state curs (m.ptr + 1).toNat = restFrom segs m.state curs q) := by
  have hptr := h.ptr
  obtain ⟨h1, h2, h3⟩ := findOn_spec m.state m.state.length (m.ptr + 1).toNat (by omega)
  have hskip : restFrom segs m.state curs (m.ptr + 1).toNat = restFrom segs m.state curs (findOn m.state m.state.length (m.ptr + 1).toNat) := by
    have := restFrom_skip (segs := segs) (state := m.state) (curs := curs) (findOn m.state m.state.length (m.ptr + 1).toNat - (m.ptr + 1).toNat) (m.ptr + 1).toNat fun i a b => by
      rw [h2 i a (by omega)]; decide
    rw [this]
    congr 1
    omega
  unfold nextTde
  dsimp only
  generalize findOn m.state m.state.length (m.ptr + 1).toNat = p at *
  by_cases hp : p ≥ m.state.length
  · rw [if_pos hp]
    refine ⟨_, rfl, ⟨rfl, rfl, rfl⟩, ⟨h.starts, h.len, h.tdesLen, h.subs, by dsimp only; omega⟩, rfl, Or.inl ⟨rfl, ?_, by dsimp only; omega, ?_⟩⟩
    · rw [hskip, restFrom_end (by rw [← h.len]; exact hp)]
    · intro i hi
      by_cases hip : i < p
      · rw [h2 i (by omega) hip]; decide
      · rw [List.getElem?_eq_none (by omega)]
        decide
  · rw [if_neg hp]
    have hlt : p < segs.length := by rw [← h.len]; omega
    rw [h.starts p (by omega)]
    simp only [Res.ofOption, Res.ok_bind]
    exact ⟨_, rfl, ⟨rfl, rfl, rfl⟩, ⟨h.starts, h.len, h.tdesLen, h.subs, by dsimp only; omega⟩, rfl, Or.inr ⟨p, rfl, rfl, by omega, hlt, h3 (by omega), rfl, hskip⟩⟩

/-- One segment's enumerator has moved. -/
theorem DRel.moved {segs : List PSeg} {isPos : Bool} {m : MTDE} {curs : Nat → PCur} (h : DRel segs isPos m curs) {p : Nat} {g : PSeg} (hg : segs[p]? = some g) {s' : STDE} {c' : PCur}
    (hs : SubRel g isPos s' c') (hsub : ∀ q ∈ c'.rest, q ∈ (curs p).rest) : DRel segs isPos { m with tdes := m.tdes.set p s' } (fun i => if i = p then c' else curs i) := by
  have hp := (List.getElem?_eq_some_iff.1 hg).1
  refine ⟨h.starts, h.len, by simp [h.tdesLen], fun i g' hg' => ?_, h.ptr⟩
  by_cases hip : i = p
  · subst hip
    rw [hg] at hg'
    cases hg'
    obtain ⟨s, -, -, h2⟩ := h.subs i g hg
    refine ⟨s', ?_, ?_, ?_⟩
    · exact List.getElem?_set_self (by rw [h.tdesLen]; exact hp)
    · rw [if_pos rfl]; exact hs
    · rw [if_pos rfl]; exact fun q hq => h2 q (hsub q hq)
  · obtain ⟨s, h1, h2, h3⟩ := h.subs i g' hg'
    refine ⟨s, ?_, ?_, ?_⟩
    · rw [← h1]; exact List.getElem?_set_ne (by omega)
    · rw [if_neg hip]; exact h2
    · rw [if_neg hip]; exact h3

/-- After moving the current segment's enumerator. -/
theorem restFrom_moved {segs : List PSeg} {state : List Bool} {curs : Nat → PCur} {p : Nat} {c' : PCur} (hp : p < segs.length) (hs : state[p]? = some true) :
    restFrom segs state (fun i => if i = p then c' else curs i) p = shiftBy (baseOf segs p) c'.rest ++ restFrom segs state curs (p + 1) := by
  rw [restFrom_step hp, if_pos hs, if_pos rfl]
  congr 1
  exact restFrom_congr fun i hi => if_neg (by omega)

theorem restFrom_after {segs : List PSeg} {state : List Bool} {curs : Nat → PCur} {p : Nat} {c' : PCur} :
    restFrom segs state (fun i => if i = p then c' else curs i) (p + 1) = restFrom segs state curs (p + 1) :=
  restFrom_congr fun i hi => if_neg (by omega)

/-- What `next` and `skip_to` do, when `R` is to come. -/
def Given (segs : List PSeg) (isPos : Bool) (m : MTDE) (R : List Posting) (m' : MTDE) (b : Bool) : Prop :=
  Same m m' ∧ ∃ curs', DRel segs isPos m' curs' ∧ b = !R.isEmpty ∧ m'.cur.isNone = R.isEmpty ∧ Stand segs isPos m' curs' (PCur.take R).1.rest (PCur.take R).1.left ∧
    ∀ q rs, R = q :: rs → mtdeDoc m' = .ok ((q.doc : Int), (q.freq : Int))

theorem given_none {segs : List PSeg} {isPos : Bool} {m m' : MTDE} {curs : Nat → PCur} (h1 : Same m m') (h2 : DRel segs isPos m' curs) (h3 : m'.cur = none) (h4 : ∀ i : Nat, m'.ptr < i → m'.state[i]? ≠ some true) :
    Given segs isPos m [] m' false := by
  refine ⟨h1, curs, h2, rfl, by rw [h3]; rfl, ?_, fun q rs h => nomatch h⟩
  unfold Stand
  rw [h3]
  exact ⟨rfl, rfl, h4⟩

theorem Given.same {segs : List PSeg} {isPos : Bool} {m m1 m' : MTDE} {R : List Posting} {b : Bool} (hs : Same m m1) (h : Given segs isPos m1 R m' b) : Given segs isPos m R m' b :=
  ⟨⟨h.1.1.trans hs.1, h.1.2.1.trans hs.2.1, h.1.2.2.trans hs.2.2⟩, h.2⟩

/-- The current segment has given a document. -/
theorem given_some {segs : List PSeg} {isPos : Bool} {m : MTDE} {curs : Nat → PCur} (h : DRel segs isPos m curs) {p : Nat} {g : PSeg} (hg : segs[p]? = some g) {s' : STDE} {q : Posting} {rs : List Posting}
    (hs : SubRel g isPos s' ⟨rs, q.occ⟩) (hsub : ∀ x ∈ rs, x ∈ (curs p).rest) (hd : docFreqOf s' = .ok ((q.doc : Int), (q.freq : Int)))
    (hcur : m.cur = some p) (hptr : m.ptr = p) (hst : m.state[p]? = some true) (hb : m.base = baseOf segs p) :
    Given segs isPos m ({ q with doc := baseOf segs p + q.doc } :: (shiftBy (baseOf segs p) rs ++ restFrom segs m.state curs (p + 1))) { m with tdes := m.tdes.set p s' } true := by
  have hp := (List.getElem?_eq_some_iff.1 hg).1
  refine ⟨⟨rfl, rfl, rfl⟩, _, h.moved hg hs hsub, rfl, by rw [hcur]; rfl, ?_, ?_⟩
  · unfold Stand
    dsimp only
    rw [hcur]
    refine ⟨hptr, hp, hst, hb, ?_, fun _ => ?_⟩
    · rw [restFrom_moved hp hst]; rfl
    · rw [if_pos rfl]; rfl
  · intro q' rs' he
    cases he
    unfold mtdeDoc
    dsimp only
    rw [hcur]
    dsimp only
    rw [List.getElem?_set_self (by rw [h.tdesLen]; exact hp)]
    simp only [Res.ofOption, Res.ok_bind]
    rw [hd, Res.ok_bind, hb]
    simp

theorem shiftBy_cons (b : Nat) (q : Posting) (rs : List Posting) : shiftBy b (q :: rs) = { q with doc := b + q.doc } :: shiftBy b rs := rfl

theorem mtdeNext_spec {segs : List PSeg} (hok : ∀ g ∈ segs, PSegOK g) {isPos : Bool} : ∀ (fuel : Nat) (m : MTDE) (curs : Nat → PCur) (R : List Posting) (L : List Int),
    DRel segs isPos m curs → Stand segs isPos m curs R L → 0 < fuel → (segs.length : Int) - m.ptr < fuel → ∃ m' b, mtdeNext fuel m = .ok (m', b) ∧ Given segs isPos m R m' b := by
  intro fuel
  induction fuel with
  | zero =>
    intro m curs R L h hst h0
    omega
  | succ fuel ih =>
    intro m curs R L h hst h0 hf
    unfold mtdeNext
    unfold Stand at hst
    cases hc : m.cur with
    | none =>
      rw [hc] at hst
      obtain ⟨rfl, -, hno⟩ := hst
      dsimp only
      rw [Res.ok_bind]
      dsimp only
      rw [if_neg (by decide)]
      obtain ⟨m', e1, e2, e3, -, e5⟩ := nextTde_spec h
      rw [e1, Res.ok_bind]
      rcases e5 with ⟨k1, -, k2, k3⟩ | ⟨q, -, -, k3, -, k5, -⟩
      · rw [k1]
        exact ⟨m', false, rfl, given_none e2 e3 k1 (by rw [e2.2.1]; exact fun i hi => k3 i (by omega))⟩
      · exact absurd k5 (hno q k3)
    | some p =>
      rw [hc] at hst
      obtain ⟨hptr, hp, hs, hb, rfl, hL⟩ := hst
      have hg : segs[p]? = some segs[p] := List.getElem?_eq_getElem hp
      obtain ⟨s, h1, h2, h3⟩ := h.subs p _ hg
      obtain ⟨s', n1, n2, n3⟩ := subRel_next (hok _ (List.getElem_mem hp)) h2
      dsimp only
      rw [h1]
      simp only [Res.ofOption, Res.ok_bind]
      rw [n1]
      simp only [Res.ok_bind]
      rw [restFrom_step hp, if_pos hs]
      cases hr : (curs p).rest with
      | cons q rs =>
        rw [hr] at n2 n3
        rw [if_pos (by simp)]
        have := given_some h hg (s' := s') (q := q) (rs := rs) n2 (fun x hx => by rw [hr]; exact List.mem_cons_of_mem _ hx) (n3 q rs rfl) hc hptr hs hb
        rw [hc] at this
        exact ⟨_, _, rfl, this⟩
      | nil =>
        rw [hr] at n2 n3
        rw [if_neg (by simp)]
        have hm := h.moved hg n2 (fun x hx => nomatch hx)
        obtain ⟨m', e1, e2, e3, e4, e5⟩ := nextTde_spec hm
        rw [hc] at e1
        rw [e1, Res.ok_bind]
        have hpt : (m.ptr + 1).toNat = p + 1 := by omega
        dsimp only at e5
        rw [hpt, restFrom_after] at e5
        show ∃ m'' b, _ ∧ Given segs isPos m (restFrom segs m.state curs (p + 1)) m'' b
        have hsame : Same m m' := e2
        rcases e5 with ⟨k1, k2, kp, k3⟩ | ⟨q, k1, k2, k3, k4, k5, k6, k7⟩
        · rw [k1, k2]
          exact ⟨m', false, rfl, given_none hsame e3 k1 (by rw [hsame.2.1]; exact fun i hi => k3 i (by first | omega | (dsimp only at kp ⊢; omega)))⟩
        · obtain ⟨m'', b, j1, j2⟩ := ih m' _ (restFrom segs m.state curs (p + 1)) (if q = p then (⟨[], []⟩ : PCur) else curs q).left e3 (by
            unfold Stand
            rw [k1]
            refine ⟨k2, k4, by rw [hsame.2.1]; exact k5, k6, ?_, fun _ => rfl⟩
            rw [hsame.2.1, k7]) (by omega) (by rw [k2]; omega)
          rw [k1]
          exact ⟨m'', b, j1, j2.same hsame⟩

theorem shiftBy_dropWhile (b : Nat) (n : Int) : ∀ l : List Posting, (shiftBy b l).dropWhile (fun p => decide ((p.doc : Int) < n)) = shiftBy b (l.dropWhile fun p => decide ((p.doc : Int) < n - b)) := by
  intro l
  induction l with
  | nil => rfl
  | cons q l ih =>
    rw [shiftBy_cons, List.dropWhile_cons, List.dropWhile_cons, ih]
    have : (decide (((b + q.doc : Nat) : Int) < n)) = decide ((q.doc : Int) < n - b) := by rw [decide_eq_decide]; omega
    dsimp only
    rw [this]
    by_cases hq : decide ((q.doc : Int) < n - b) = true
    · rw [if_pos hq, if_pos hq]
    · rw [if_neg hq, if_neg hq]; rfl

theorem dropWhile_append_left {α : Type} (p : α → Bool) : ∀ (l r : List α), l.dropWhile p = [] → (l ++ r).dropWhile p = r.dropWhile p := by
  intro l r h
  rw [List.dropWhile_append, h]
  rfl

theorem dropWhile_append_right {α : Type} (p : α → Bool) (l r : List α) {q : α} {rs : List α} (h : l.dropWhile p = q :: rs) : (l ++ r).dropWhile p = q :: (rs ++ r) := by
  rw [List.dropWhile_append, h]
  rfl

theorem baseOf_succ {segs : List PSeg} {p : Nat} {g : PSeg} (hg : segs[p]? = some g) : baseOf segs (p + 1) = baseOf segs p + g.size := by
  unfold baseOf
  rw [List.take_add_one, hg, List.map_append, List.sum_append]
  simp only [Option.toList, List.map_cons, List.map_nil, List.sum_cons, List.sum_nil, Nat.add_zero]

theorem dropWhile_all {α : Type} (p : α → Bool) : ∀ l : List α, (∀ x ∈ l, p x = true) → l.dropWhile p = [] := by
  intro l
  induction l with
  | nil => intro _; rfl
  | cons x l ih => intro h; rw [List.dropWhile_cons_of_pos (h x (List.mem_cons_self ..))]; exact ih fun y hy => h y (List.mem_cons_of_mem _ hy)

theorem ite_le_one (b : Bool) : (if b = true then 0 else 1) ≤ 1 := by cases b <;> decide

theorem mtdeSkipTo_spec {segs : List PSeg} (hok : ∀ g ∈ segs, PSegOK g) (hsi : ∀ g ∈ segs, 3 ≤ g.si) {isPos : Bool} (n : Int) : ∀ (fuel : Nat) (m : MTDE) (curs : Nat → PCur) (R : List Posting) (L : List Int),
    DRel segs isPos m curs → Stand segs isPos m curs R L → 0 < fuel → (m.cur ≠ none → (segs.length : Int) - m.ptr < fuel) → ∃ m' b, mtdeSkipTo n fuel m = .ok (m', b) ∧ Given segs isPos m (R.dropWhile fun p => decide ((p.doc : Int) < n)) m' b := by
  intro fuel
  induction fuel with
  | zero =>
    intro m curs R L h hst h0
    omega
  | succ fuel ih =>
    intro m curs R L h hst h0 hf
    unfold mtdeSkipTo
    unfold Stand at hst
    cases hc : m.cur with
    | none =>
      rw [hc] at hst
      obtain ⟨rfl, -, hno⟩ := hst
      exact ⟨m, false, rfl, given_none ⟨rfl, rfl, rfl⟩ h hc hno⟩
    | some p =>
      rw [hc] at hst
      obtain ⟨hptr, hp, hs, hb, rfl, hL⟩ := hst
      have hf' := hf (by rw [hc]; simp)
      have hg : segs[p]? = some segs[p] := List.getElem?_eq_getElem hp
      obtain ⟨s, h1, h2, h3⟩ := h.subs p _ hg
      dsimp only
      have hpt : (m.ptr + 1).toNat = p + 1 := by omega
      rw [hpt, h.starts (p + 1) (by omega), restFrom_step hp, if_pos hs]
      simp only [Res.ofOption, Res.ok_bind]
      have hbs := baseOf_succ hg
      -- the following segments
      have goOn : ∀ (m1 : MTDE) (curs1 : Nat → PCur), Same m m1 → m1.ptr = m.ptr → DRel segs isPos m1 curs1 → (∀ i, p < i → curs1 i = curs i) →
          (shiftBy (baseOf segs p) (curs p).rest).dropWhile (fun p => decide ((p.doc : Int) < n)) = [] →
          ∃ m' b, (nextTde m1 >>= fun m => mtdeSkipTo n fuel m) = .ok (m', b) ∧
            Given segs isPos m ((shiftBy (baseOf segs p) (curs p).rest ++ restFrom segs m.state curs (p + 1)).dropWhile fun p => decide ((p.doc : Int) < n)) m' b := by
        intro m1 curs1 hs1 hp1 hd1 hcs hnil
        rw [dropWhile_append_left _ _ _ hnil]
        obtain ⟨m', e1, e2, e3, e4, e5⟩ := nextTde_spec hd1
        rw [e1, Res.ok_bind]
        rw [hp1, hpt, hs1.2.1, restFrom_congr (curs := curs1) (curs' := curs) fun i hi => hcs i (by omega)] at e5
        have hsame : Same m m' := ⟨e2.1.trans hs1.1, e2.2.1.trans hs1.2.1, e2.2.2.trans hs1.2.2⟩
        rcases e5 with ⟨k1, k2, kp, k3⟩ | ⟨q, k1, k2, k3, k4, k5, k6, k7⟩
        · obtain ⟨m'', b, j1, j2⟩ := ih m' curs1 [] [] e3 (by
            unfold Stand
            rw [k1]
            exact ⟨rfl, rfl, by rw [hsame.2.1]; exact fun i hi => k3 i (by first | omega | (dsimp only at kp ⊢; omega))⟩) (by omega) (fun hx => absurd k1 hx)
          rw [k2]
          exact ⟨m'', b, j1, j2.same hsame⟩
        · obtain ⟨m'', b, j1, j2⟩ := ih m' curs1 (restFrom segs m.state curs (p + 1)) (curs1 q).left e3 (by
            unfold Stand
            rw [k1]
            refine ⟨k2, k4, by rw [hsame.2.1]; exact k5, k6, ?_, fun _ => rfl⟩
            rw [hsame.2.1, k7]
            try exact restFrom_congr fun i hi => (hcs i (by omega)).symm) (by omega) (fun _ => by rw [k2]; omega)
          exact ⟨m'', b, j1, j2.same hsame⟩
      by_cases ht : n < (baseOf segs (p + 1) : Nat)
      · rw [if_pos ht, h1]
        simp only [Res.ok_bind]
        obtain ⟨s', n1, n2, n3⟩ := subRel_skipTo (hok _ (List.getElem_mem hp)) h2 (hsi _ (List.getElem_mem hp)) (n - m.base) rfl
        rw [n1]
        simp only [Res.ok_bind]
        rw [hb] at n2 n3 ⊢
        have hsd := shiftBy_dropWhile (baseOf segs p) n (curs p).rest
        cases hr : (curs p).rest.dropWhile (fun q => decide ((q.doc : Int) < n - (baseOf segs p : Nat))) with
        | cons q rs =>
          rw [hr] at n2 n3 hsd
          rw [if_pos (by simp)]
          have hmem : ∀ x ∈ rs, x ∈ (curs p).rest := fun x hx => (List.dropWhile_sublist _).subset (by rw [hr]; exact List.mem_cons_of_mem _ hx)
          have := given_some h hg (s' := s') (q := q) (rs := rs) n2 hmem (n3 q rs rfl) hc hptr hs hb
          rw [hc, hb] at this
          rw [dropWhile_append_right _ _ _ hsd]
          exact ⟨_, _, rfl, this⟩
        | nil =>
          rw [hr] at n2 n3 hsd
          rw [if_neg (by simp)]
          have hm := h.moved hg n2 (fun x hx => nomatch hx)
          rw [hc, hb] at hm
          exact goOn _ _ ⟨rfl, rfl, rfl⟩ rfl hm (fun i hi => if_neg (by omega)) hsd
      · rw [if_neg ht, Res.ok_bind]
        dsimp only
        rw [if_neg (by decide)]
        refine goOn m curs ⟨rfl, rfl, rfl⟩ rfl h (fun _ _ => rfl) ?_
        refine dropWhile_all _ _ fun x hx => ?_
        obtain ⟨y, hy, rfl⟩ := List.mem_map.1 hx
        have := h3 y hy
        exact decide_eq_true (by dsimp only; omega)

/-- What `read n` does, when `R` is to come. -/
def Read (segs : List PSeg) (m : MTDE) (R : List Posting) (n : Nat) (m' : MTDE) (ds : List (Int × Int)) : Prop :=
  Same m m' ∧ ds = (R.take n).map (fun p => ((p.doc : Int), (p.freq : Int))) ∧ ∃ curs', DRel segs false m' curs' ∧ Stand segs false m' curs' (R.drop n) [] ∧
    m'.cur.isNone = (m.cur.isNone || decide (R.length < n))

theorem stand_left {segs : List PSeg} {m : MTDE} {curs : Nat → PCur} {R : List Posting} {L : List Int} (h : Stand segs false m curs R L) : Stand segs false m curs R [] := by
  unfold Stand at *
  cases hc : m.cur with
  | none => rw [hc] at h; exact ⟨h.1, rfl, h.2.2⟩
  | some p =>
    rw [hc] at h
    obtain ⟨a, b, c, d, e, -⟩ := h
    exact ⟨a, b, c, d, e, fun h => nomatch h⟩

theorem shiftBy_length (b : Nat) (l : List Posting) : (shiftBy b l).length = l.length := List.length_map ..

theorem shiftBy_pairs (b : Nat) (l : List Posting) (n : Nat) : (((l.take n).map fun p => ((p.doc : Int), (p.freq : Int))).map fun d => ((d.1 + (b : Int), d.2) : Int × Int)) =
    ((shiftBy b l).take n).map fun p => ((p.doc : Int), (p.freq : Int)) := by
  unfold shiftBy
  rw [List.map_map, ← List.map_take, List.map_map]
  apply List.map_congr_left
  intro x _
  simp only [Function.comp]
  congr 1
  omega

theorem mtdeRead_spec {segs : List PSeg} (hok : ∀ g ∈ segs, PSegOK g) : ∀ (fuel want : Nat) (m : MTDE) (curs : Nat → PCur) (R : List Posting),
    0 < want → DRel segs false m curs → Stand segs false m curs R [] → 0 < fuel →
    (∀ p, m.cur = some p → 2 * (segs.length - p) + (if (curs p).rest.isEmpty then 0 else 1) < fuel) → ∃ m' ds, mtdeRead fuel want m = .ok (m', ds) ∧ Read segs m R want m' ds := by
  intro fuel
  induction fuel with
  | zero =>
    intro want m curs R hw h hst h0
    omega
  | succ fuel ih =>
    intro want m curs R hw h hst h0 hf
    unfold mtdeRead
    have hst' := hst
    unfold Stand at hst
    cases hc : m.cur with
    | none =>
      rw [hc] at hst
      obtain ⟨rfl, -, hno⟩ := hst
      exact ⟨m, [], rfl, ⟨rfl, rfl, rfl⟩, by simp, curs, h, by rw [List.drop_nil]; exact hst', by rw [hc]; rfl⟩
    | some p =>
      rw [hc] at hst
      obtain ⟨hptr, hp, hs, hb, rfl, hL⟩ := hst
      have hf' := hf p hc
      have hg : segs[p]? = some segs[p] := List.getElem?_eq_getElem hp
      obtain ⟨s, h1, h2, h3⟩ := h.subs p _ hg
      obtain ⟨s', n1, n2⟩ := subRel_read (hok _ (List.getElem_mem hp)) h2 want
      dsimp only
      rw [h1]
      simp only [Res.ofOption, Res.ok_bind]
      rw [n1]
      simp only [Res.ok_bind]
      have hm := h.moved hg n2 (fun x hx => (List.drop_sublist _ _).subset hx)
      have hpt : (m.ptr + 1).toNat = p + 1 := by omega
      rw [restFrom_step hp, if_pos hs, List.length_map, List.length_take]
      by_cases hz : (curs p).rest = []
      · rw [if_pos (by rw [hz]; simp)]
        rw [hc] at hm
        obtain ⟨m', e1, e2, e3, e4, e5⟩ := nextTde_spec hm
        rw [e1, Res.ok_bind]
        dsimp only at e5
        rw [hpt, restFrom_after] at e5
        rw [hz]
        show ∃ m'' ds, _ ∧ Read segs m (restFrom segs m.state curs (p + 1)) want m'' ds
        have hsame : Same m m' := e2
        rcases e5 with ⟨k1, k2, kp, k3⟩ | ⟨q, k1, k2, k3, k4, k5, k6, k7⟩
        · rw [k1, k2]
          refine ⟨m', [], rfl, hsame, by simp, _, e3, ?_, ?_⟩
          · unfold Stand
            rw [k1, List.drop_nil]
            exact ⟨rfl, rfl, by rw [hsame.2.1]; exact fun i hi => k3 i (by first | omega | (dsimp only at kp ⊢; omega))⟩
          · rw [k1, hc]
            exact (decide_eq_true (show ([] : List Posting).length < want from hw)).symm
        · obtain ⟨m'', ds, j1, j2⟩ := ih want m' _ (restFrom segs m.state curs (p + 1)) hw e3 (by
            unfold Stand
            rw [k1]
            refine ⟨k2, k4, by rw [hsame.2.1]; exact k5, k6, ?_, fun h => nomatch h⟩
            rw [hsame.2.1, k7]) (by omega) (by
            intro p' hp'
            rw [k1] at hp'
            cases hp'
            have := ite_le_one (if q = p then (⟨(curs p).rest.drop want, (curs p).left⟩ : PCur) else curs q).rest.isEmpty
            omega)
          rw [k1]
          refine ⟨m'', ds, j1, ⟨j2.1.1.trans hsame.1, j2.1.2.1.trans hsame.2.1, j2.1.2.2.trans hsame.2.2⟩, j2.2.1, ?_⟩
          obtain ⟨c', a, b, d⟩ := j2.2.2
          exact ⟨c', a, b, by rw [d, k1, hc]; rfl⟩
      · have hl : 0 < (curs p).rest.length := List.length_pos_iff.2 hz
        rw [if_neg (by omega)]
        have hpr := shiftBy_pairs (baseOf segs p) (curs p).rest want
        rw [hb, hpr]
        by_cases hw2 : min want (curs p).rest.length = want
        · rw [if_pos hw2]
          have hle : want ≤ (curs p).rest.length := by omega
          refine ⟨_, _, rfl, ⟨rfl, rfl, rfl⟩, ?_, _, by rw [hc, hb] at hm; exact hm, ?_, ?_⟩
          · rw [List.take_append_of_le_length (by rw [shiftBy_length]; exact hle)]
          · unfold Stand
            dsimp only
            refine ⟨hptr, hp, hs, rfl, ?_, fun h => nomatch h⟩
            rw [restFrom_moved hp hs, List.drop_append_of_le_length (by rw [shiftBy_length]; exact hle)]
            unfold shiftBy
            rw [List.map_drop]
          · rw [hc]
            refine (decide_eq_false ?_).symm
            rw [List.length_append, shiftBy_length]
            omega
        · rw [if_neg hw2]
          have hlt : (curs p).rest.length < want := by omega
          rw [show min want (curs p).rest.length = (curs p).rest.length by omega]
          rw [hc, hb] at hm
          obtain ⟨m'', ds, j1, j2, j3, c', j4, j5, j6⟩ := ih (want - (curs p).rest.length) _ _ (restFrom segs m.state curs (p + 1)) (by omega) hm (by
            unfold Stand
            refine ⟨hptr, hp, hs, rfl, ?_, fun h => nomatch h⟩
            rw [restFrom_moved hp hs]
            dsimp only
            rw [List.drop_of_length_le (by omega)]
            rfl) (by omega) (by
            intro p' hp'
            cases hp'
            rw [if_pos rfl]
            dsimp only
            rw [List.drop_of_length_le (by omega)]
            have : (curs p).rest.isEmpty = false := by cases hx : (curs p).rest with
              | nil => exact absurd hx hz
              | cons => rfl
            rw [this] at hf'
            simp only [List.isEmpty_nil, if_true]
            simp only [Bool.false_eq_true, if_false] at hf'
            omega)
          rw [j1, Res.ok_bind]
          refine ⟨_, _, rfl, j2, ?_, c', j4, ?_, ?_⟩
          · dsimp only
            rw [j3, List.take_append, List.map_append, shiftBy_length]
          · rw [List.drop_append, List.drop_of_length_le (by rw [shiftBy_length]; omega), List.nil_append, shiftBy_length]
            exact j5
          · dsimp only at j6 ⊢
            rw [j6, hc, List.length_append, shiftBy_length]
            simp only [Option.isNone_some, Bool.false_or]
            rw [decide_eq_decide]
            omega

theorem mtdePosition_spec {segs : List PSeg} (hok : ∀ g ∈ segs, PSegOK g) {m : MTDE} {curs : Nat → PCur} {R : List Posting} {L : List Int} (h : DRel segs true m curs) (hst : Stand segs true m curs R L) (hc : m.cur.isNone = false) :
    ∃ m' curs', mtdePosition m = .ok (m', L.head?.getD (-1)) ∧ Same m m' ∧ m'.cur = m.cur ∧ DRel segs true m' curs' ∧ Stand segs true m' curs' R L.tail := by
  unfold mtdePosition
  unfold Stand at hst
  cases hcur : m.cur with
  | none => rw [hcur] at hc; cases hc
  | some p =>
    rw [hcur] at hst
    obtain ⟨hptr, hp, hs, hb, rfl, hL⟩ := hst
    have hg : segs[p]? = some segs[p] := List.getElem?_eq_getElem hp
    obtain ⟨s, h1, h2, h3⟩ := h.subs p _ hg
    obtain ⟨s', n1, n2⟩ := subRel_position (hok _ (List.getElem_mem hp)) h2
    dsimp only
    rw [h1]
    simp only [Res.ofOption, Res.ok_bind]
    rw [n1, Res.ok_bind, hL rfl]
    have hm := h.moved hg n2 (fun x hx => hx)
    rw [hcur] at hm
    refine ⟨_, _, rfl, ⟨rfl, rfl, rfl⟩, rfl, hm, ?_⟩
    unfold Stand
    dsimp only
    refine ⟨hptr, hp, hs, hb, ?_, fun _ => by rw [if_pos rfl]⟩
    rw [restFrom_moved hp hs, restFrom_step hp, if_pos hs]

/-! ### Proof: seeking -/

/-- The info is that of a term of segment `i`, whose documents are `ps`. -/
def TiOf (segs : List PSeg) (t : Term) (i : Nat) (ti : TI) (ps : List Posting) : Prop :=
  ∃ g ti0, segs[i]? = some g ∧ Loc g.frq g.prx g.si ti0 ps ∧ PsOK ps ∧ seen g.sub.sfi.skipInterval (t, ti) = seen g.sub.sfi.skipInterval (t, ti0) ∧ ∀ q ∈ ps, q.doc < g.size

theorem seekLoop_spec {segs : List PSeg} (hok : ∀ g ∈ segs, PSegOK g) {isPos : Bool} {t : Term} (post : Nat → List Posting) : ∀ (l : List (Nat × TI)) (m : MTDE) (curs : Nat → PCur),
    DRel segs isPos m curs → (isPos = true → ∀ s ∈ m.tdes, s.prxCnt = 0) → (∀ x ∈ l, TiOf segs t x.1 x.2 (post x.1)) →
    ∃ st ts curs', seekLoop l m.state m.tdes = .ok (st, ts) ∧ DRel segs isPos { m with state := st, tdes := ts } curs' ∧ (isPos = true → ∀ s ∈ ts, s.prxCnt = 0) ∧
      (∀ i, st[i]? = some true ↔ (i ∈ l.map (·.1) ∨ m.state[i]? = some true)) ∧
      (∀ i g, segs[i]? = some g → i ∈ l.map (·.1) → curs' i = ⟨(post i).filter fun p => !g.dead p.doc, []⟩) ∧ (∀ i, i ∉ l.map (·.1) → curs' i = curs i) := by
  intro l
  induction l with
  | nil => intro m curs h hc _; exact ⟨m.state, m.tdes, curs, rfl, h, hc, fun i => by simp, fun i g _ hi => by simp at hi, fun _ _ => rfl⟩
  | cons x l ih =>
    obtain ⟨i, ti⟩ := x
    intro m curs h hc hl
    obtain ⟨g, ti0, a1, a2, a3, a4, a5⟩ := hl (i, ti) (List.mem_cons_self ..)
    dsimp only at a1 a2 a3 a4 a5
    have hi := (List.getElem?_eq_some_iff.1 a1).1
    obtain ⟨s, b1, b2, b3⟩ := h.subs i g a1
    obtain ⟨s', c1, c2, c3⟩ := subRel_seek (hok g (List.mem_of_getElem? a1)) b2 (fun hp => hc hp s (List.mem_of_getElem? b1)) a2 a3 a4
    have hm : DRel segs isPos { m with state := m.state.set i true, tdes := m.tdes.set i s' } (fun j => if j = i then ⟨(post i).filter fun p => !g.dead p.doc, []⟩ else curs j) := by
      refine ⟨h.starts, by simp [h.len], by simp [h.tdesLen], fun j g' hg' => ?_, h.ptr⟩
      by_cases hji : j = i
      · subst hji
        rw [a1] at hg'
        cases hg'
        refine ⟨s', List.getElem?_set_self (by rw [h.tdesLen]; exact hi), by rw [if_pos rfl]; exact c2, ?_⟩
        rw [if_pos rfl]
        exact fun q hq => a5 q (List.mem_filter.1 hq).1
      · obtain ⟨s1, h1, h2, h3⟩ := h.subs j g' hg'
        exact ⟨s1, by rw [← h1]; exact List.getElem?_set_ne (by omega), by rw [if_neg hji]; exact h2, by rw [if_neg hji]; exact h3⟩
    obtain ⟨st, ts, curs', d1, d2, d3, d4, d5, d6⟩ := ih _ _ hm (by
      intro hp s1 hs1
      rcases List.mem_or_eq_of_mem_set hs1 with h1 | h1
      · exact hc hp s1 h1
      · rw [h1]; exact c3 hp) fun x hx => hl x (List.mem_cons_of_mem _ hx)
    have hset : ∀ j, (m.state.set i true)[j]? = some true ↔ (j = i ∨ m.state[j]? = some true) := by
      intro j
      by_cases hji : j = i
      · subst hji
        rw [List.getElem?_set_self (by rw [h.len]; exact hi)]
        simp
      · rw [List.getElem?_set_ne (by omega)]
        simp [hji]
    refine ⟨st, ts, curs', ?_, d2, d3, ?_, ?_, ?_⟩
    · unfold seekLoop
      rw [b1]
      simp only [Res.ofOption, Res.ok_bind]
      rw [if_pos (by rw [h.len]; exact hi), c1, Res.ok_bind]
      exact d1
    · intro j
      rw [d4, hset, List.map_cons, List.mem_cons]
      constructor
      · rintro (h1 | h1 | h1)
        · exact Or.inl (Or.inr h1)
        · exact Or.inl (Or.inl h1)
        · exact Or.inr h1
      · rintro ((h1 | h1) | h1)
        · exact Or.inr (Or.inl h1)
        · exact Or.inl h1
        · exact Or.inr (Or.inr h1)
    · intro j g' hg' hj
      rw [List.map_cons, List.mem_cons] at hj
      by_cases hjl : j ∈ l.map (·.1)
      · exact d5 j g' hg' hjl
      · rcases hj with hj | hj
        · dsimp only at hj
          rw [d6 j hjl, if_pos hj]
          subst hj
          rw [a1] at hg'
          cases hg'
          rfl
        · exact absurd hj hjl
    · intro j hj
      rw [List.map_cons, List.mem_cons, not_or] at hj
      rw [d6 j hj.2, if_neg hj.1]

theorem postingsOf_mem {fields : List (Nat × List (Term × List Posting))} {f : Int} {t : Term} {ps : List Posting} (h : postingsOf fields f t = some ps) : ∃ x ∈ fields, ∃ y ∈ x.2, y.2 = ps := by
  unfold postingsOf at h
  rw [Option.map_eq_some_iff] at h
  obtain ⟨y, h1, h2⟩ := h
  rw [Option.bind_eq_some_iff] at h1
  obtain ⟨x, h3, h4⟩ := h1
  exact ⟨x, List.mem_of_find?_eq_some h3, y, List.mem_of_find?_eq_some h4, h2⟩

theorem termsIn_find {mr : MR} {segs : List PSeg} {f : Int} {t : Term} {i : Nat} {g : PSeg} (hg : segs[i]? = some g) :
    (termsIn mr (segs.map PSeg.seg) f i).find? (fun e => decide (e.1 = t)) = entryOf g.dict (numberIn mr i f) t := by
  rw [termsIn_eq (s := g.seg) (by rw [List.getElem?_map, hg]; rfl)]
  rfl

/-- The segments with an info of the term are those that have it. -/
theorem holders_present {mr : MR} {segs : List PSeg} (hok : ∀ g ∈ segs, PSegOK g) {f : Int} {t : Term} (i : Nat) (ti : TI) (h : (i, ti) ∈ holders segs.length (termsIn mr (segs.map PSeg.seg) f) t) :
    ∃ g ps, segs[i]? = some g ∧ postingsOf g.fields (numberIn mr i f) t = some ps ∧ Loc g.frq g.prx g.si ti ps ∧ PsOK ps ∧ ∀ q ∈ ps, q.doc < g.size := by
  unfold holders at h
  obtain ⟨j, hj, h1⟩ := List.mem_filterMap.1 h
  rw [Option.map_eq_some_iff] at h1
  obtain ⟨e, h2, h3⟩ := h1
  cases h3
  have hi := List.mem_range.1 hj
  have hg : segs[i]? = some segs[i] := List.getElem?_eq_getElem hi
  have hgo := hok _ (List.getElem_mem hi)
  rw [termsIn_find hg] at h2
  rcases entry_loc hgo.seg hgo.siPos (numberIn mr i f) t with ⟨l1, l2⟩ | ⟨ti, ps, l1, l0, l2, l3⟩
  · rw [show entryOf segs[i].dict (numberIn mr i f) t = none from l1] at h2; cases h2
  · rw [show entryOf segs[i].dict (numberIn mr i f) t = _ from l1] at h2
    cases h2
    refine ⟨segs[i], ps, hg, l0, l2, l3, ?_⟩
    obtain ⟨x, hx, y, hy, rfl⟩ := postingsOf_mem l0
    exact hgo.docs x hx y hy

theorem present_holders {mr : MR} {segs : List PSeg} (hok : ∀ g ∈ segs, PSegOK g) {f : Int} {t : Term} {i : Nat} {g : PSeg} {ps : List Posting} (hg : segs[i]? = some g) (hp : postingsOf g.fields (numberIn mr i f) t = some ps) :
    ∃ ti, (i, ti) ∈ holders segs.length (termsIn mr (segs.map PSeg.seg) f) t := by
  have hgo := hok _ (List.mem_of_getElem? hg)
  have hi := (List.getElem?_eq_some_iff.1 hg).1
  rcases entry_loc hgo.seg hgo.siPos (numberIn mr i f) t with ⟨l1, l2⟩ | ⟨ti, ps', l1, l0, l2, l3⟩
  · rw [l2] at hp; cases hp
  · refine ⟨ti, List.mem_filterMap.2 ⟨i, List.mem_range.2 hi, ?_⟩⟩
    rw [termsIn_find hg, show entryOf g.dict (numberIn mr i f) t = _ from l1]
    rfl

theorem present_iff {mr : MR} {segs : List PSeg} {f : Int} {t : Term} : present mr segs f t = true ↔ ∃ i g ps, segs[i]? = some g ∧ postingsOf g.fields (numberIn mr i f) t = some ps := by
  unfold present
  rw [List.any_eq_true]
  constructor
  · rintro ⟨i, -, h⟩
    rw [Option.isSome_iff_exists] at h
    obtain ⟨a, h⟩ := h
    unfold writtenIn at h
    rw [Option.bind_eq_some_iff] at h
    obtain ⟨g, h1, h2⟩ := h
    rw [Option.map_eq_some_iff] at h2
    obtain ⟨ps, h3, -⟩ := h2
    exact ⟨i, g, ps, h1, h3⟩
  · rintro ⟨i, g, ps, h1, h2⟩
    refine ⟨i, List.mem_range.2 (List.getElem?_eq_some_iff.1 h1).1, ?_⟩
    unfold writtenIn
    rw [h1, Option.bind_some, h2]
    rfl

theorem inSome_present {mr : MR} {segs : List PSeg} (hok : ∀ g ∈ segs, PSegOK g) {f : Int} {t : Term} : InSome segs.length (termsIn mr (segs.map PSeg.seg) f) t ↔ present mr segs f t = true := by
  rw [present_iff]
  constructor
  · rintro ⟨i, hi, e, he, rfl⟩
    have hs : ∃ x, (termsIn mr (segs.map PSeg.seg) f i).find? (fun x => decide (x.1 = e.1)) = some x := by
      cases hx : (termsIn mr (segs.map PSeg.seg) f i).find? (fun x => decide (x.1 = e.1)) with
      | some x => exact ⟨x, rfl⟩
      | none => exact absurd (decide_eq_true rfl) (List.find?_eq_none.1 hx e he)
    obtain ⟨x, hx⟩ := hs
    obtain ⟨g, ps, h1, h2, -⟩ := holders_present hok i x.2 (List.mem_filterMap.2 ⟨i, List.mem_range.2 hi, by rw [hx]; rfl⟩)
    exact ⟨i, g, ps, h1, h2⟩
  · rintro ⟨i, g, ps, h1, h2⟩
    obtain ⟨ti, h3⟩ := present_holders hok h1 h2
    obtain ⟨j, hj, h4⟩ := List.mem_filterMap.1 h3
    rw [Option.map_eq_some_iff] at h4
    obtain ⟨e, h5, h6⟩ := h4
    cases h6
    exact ⟨_, List.mem_range.1 hj, e, List.mem_of_find?_eq_some h5, by simpa using List.find?_some h5⟩

theorem flatMap_congr' {α β : Type} {f g : α → List β} : ∀ {l : List α}, (∀ x ∈ l, f x = g x) → l.flatMap f = l.flatMap g := by
  intro l
  induction l with
  | nil => intro _; rfl
  | cons x l ih => intro h; rw [List.flatMap_cons, List.flatMap_cons, h x (List.mem_cons_self ..), ih fun y hy => h y (List.mem_cons_of_mem _ hy)]

theorem mtdeSeekTe_spec {mr : MR} {segs : List PSeg} (hok : ∀ g ∈ segs, PSegOK g) {isPos : Bool} {m : MTDE} {curs : Nat → PCur} (h : DRel segs isPos m curs) (hc : isPos = true → ∀ s ∈ m.tdes, s.prxCnt = 0)
    {f : Int} {t : Term} {tis : List (Nat × TI)} (hp : present mr segs f t = true)
    (ht : tis.map (obs (segs.map PSeg.seg) t) = (holders segs.length (termsIn mr (segs.map PSeg.seg) f) t).map (obs (segs.map PSeg.seg) t)) :
    ∃ m' curs', mtdeSeekTe m tis = .ok m' ∧ m'.te = m.te ∧ m'.cur.isNone = false ∧ DRel segs isPos m' curs' ∧ Stand segs isPos m' curs' (merged mr segs f t) [] := by
  -- every info is that of a holder
  have hmem : ∀ x ∈ tis, ∃ ti0, (x.1, ti0) ∈ holders segs.length (termsIn mr (segs.map PSeg.seg) f) t ∧ obs (segs.map PSeg.seg) t x = obs (segs.map PSeg.seg) t (x.1, ti0) := by
    intro x hx
    have : obs (segs.map PSeg.seg) t x ∈ (holders segs.length (termsIn mr (segs.map PSeg.seg) f) t).map (obs (segs.map PSeg.seg) t) := by
      rw [← ht]; exact List.mem_map_of_mem hx
    obtain ⟨y, h1, h2⟩ := List.mem_map.1 this
    have h3 : y.1 = x.1 := congrArg (·.1) h2
    exact ⟨y.2, by rw [← h3]; exact h1, by rw [← h3]; exact h2.symm⟩
  have hidx : ∀ i ti0, (i, ti0) ∈ holders segs.length (termsIn mr (segs.map PSeg.seg) f) t → i ∈ tis.map (·.1) := by
    intro i ti0 hi
    have : obs (segs.map PSeg.seg) t (i, ti0) ∈ tis.map (obs (segs.map PSeg.seg) t) := by rw [ht]; exact List.mem_map_of_mem hi
    obtain ⟨y, h1, h2⟩ := List.mem_map.1 this
    exact List.mem_map.2 ⟨y, h1, congrArg (·.1) h2⟩
  let post : Nat → List Posting := fun i => (segs[i]?.bind fun g => postingsOf g.fields (numberIn mr i f) t).getD []
  have hof : ∀ x ∈ tis.reverse, TiOf segs t x.1 x.2 (post x.1) := by
    intro x hx
    obtain ⟨ti0, h1, h2⟩ := hmem x (List.mem_reverse.1 hx)
    obtain ⟨g, ps, g1, g2, g3, g4, g5⟩ := holders_present hok _ _ h1
    have hpost : post x.1 = ps := by show (segs[x.1]?.bind _).getD [] = ps; rw [g1, Option.bind_some, g2]; rfl
    rw [hpost]
    refine ⟨g, ti0, g1, g3, g4, ?_, g5⟩
    have h3 := congrArg (·.2) h2
    unfold obs at h3
    dsimp only at h3
    rw [List.getElem?_map, g1] at h3
    exact Option.some.inj h3
  have h0 : DRel segs isPos { m with state := m.state.map fun _ => false } curs := ⟨h.starts, by simp [h.len], h.tdesLen, h.subs, h.ptr⟩
  obtain ⟨st, ts, curs', d1, d2, d3, d4, d5, -⟩ := seekLoop_spec hok post tis.reverse _ curs h0 hc hof
  have d2' : DRel segs isPos { m with state := st, tdes := ts, base := 0, ptr := -1 } curs' := ⟨d2.starts, d2.len, d2.tdesLen, d2.subs, Int.le_refl _⟩
  obtain ⟨m', e1, e2, e3, e4, e5⟩ := nextTde_spec d2'
  have hst : ∀ i, st[i]? = some true ↔ i ∈ tis.map (·.1) := by
    intro i
    rw [d4]
    constructor
    · rintro (h1 | h1)
      · simpa using h1
      · rw [List.getElem?_map, Option.map_eq_some_iff] at h1
        obtain ⟨_, -, h1⟩ := h1
        cases h1
    · intro h1; exact Or.inl (by simpa using h1)
  have hall : restFrom segs st curs' 0 = merged mr segs f t := by
    unfold restFrom merged
    rw [Nat.sub_zero, ← List.range_eq_range']
    refine flatMap_congr' fun i hi => ?_
    have hi' := List.mem_range.1 hi
    have hg : segs[i]? = some segs[i] := List.getElem?_eq_getElem hi'
    unfold writtenIn
    rw [hg, Option.bind_some]
    cases hps : postingsOf segs[i].fields (numberIn mr i f) t with
    | none =>
      rw [if_neg]
      · rfl
      · rw [hst]
        intro hin
        obtain ⟨x, hx, rfl⟩ := List.mem_map.1 hin
        obtain ⟨ti0, h1, -⟩ := hmem x hx
        obtain ⟨g, ps, g1, g2, -⟩ := holders_present hok _ _ h1
        rw [hg] at g1
        cases g1
        rw [hps] at g2
        cases g2
    | some ps =>
      obtain ⟨ti, h1⟩ := present_holders hok hg hps
      have hin := hidx i ti h1
      rw [if_pos ((hst i).2 hin), d5 i _ hg (by simpa using hin)]
      have hpost : post i = ps := by show (segs[i]?.bind _).getD [] = ps; rw [hg, Option.bind_some, hps]; rfl
      rw [hpost]
      rfl
  refine ⟨m', curs', ?_, e2.2.2, ?_⟩
  · unfold mtdeSeekTe
    rw [d1, Res.ok_bind]
    exact e1
  · dsimp only at e5
    rcases e5 with ⟨k1, k2, kp, k3⟩ | ⟨q, k1, k2, k3, k4, k5, k6, k7⟩
    · exfalso
      obtain ⟨i, g, ps, h1, h2⟩ := present_iff.1 hp
      obtain ⟨ti, h3⟩ := present_holders hok h1 h2
      exact k3 i (by omega) ((hst i).2 (hidx i ti h3))
    · refine ⟨by rw [k1]; rfl, e3, ?_⟩
      unfold Stand
      rw [k1]
      refine ⟨k2, k4, by rw [e2.2.1]; exact k5, k6, ?_, fun _ => ?_⟩
      · rw [e2.2.1, ← hall]
        exact k7
      · have hg : segs[q]? = some segs[q] := List.getElem?_eq_getElem k4
        rw [d5 q _ hg (by simpa using (hst q).1 k5)]

/-- The enumerator stands where the cursor does. -/
structure MPRel (mr : MR) (segs : List PSeg) (isPos : Bool) (m : MTDE) (c : MPCur) : Prop where
  te : ∃ mc, MStands mr (segs.map PSeg.seg) m.te mc
  at' : ∃ curs, DRel segs isPos m curs ∧ Stand segs isPos m curs c.cur.rest (if isPos then c.cur.left else [])
  ended : m.cur.isNone = c.ended
  fresh : c.fresh = true → c.ended = true ∧ ∀ s ∈ m.tdes, s.prxCnt = 0

theorem leastTerm_unique {P : Term → Prop} {t : Term} (h : P t) (hle : ∀ u, P u → ¬ u < t) {o : Option Term} (ho : LeastTerm P o) : o = some t := by
  cases o with
  | none => exact absurd h (ho t)
  | some u => rw [lt_tri (hle u ho.1) (ho.2 t h)]

theorem mtdeStep_spec {mr : MR} {segs : List PSeg} (hmr : mr.subs = segs.map (·.sub)) (hok : ∀ g ∈ segs, PSegOK g) {isPos : Bool} {m : MTDE} {c : MPCur} (h : MPRel mr segs isPos m c) (op : PostOp) (hop : c.usable mr segs isPos op) :
    ∃ m', mtdeStep mr m op = .ok (m', (c.step mr segs op).2) ∧ MPRel mr segs isPos m' (c.step mr segs op).1 := by
  obtain ⟨⟨mc, hte⟩, ⟨curs, hd, hst⟩, hen, hfr⟩ := h
  have hmr' : mr.subs = (segs.map PSeg.seg).map (·.sub) := by rw [hmr, List.map_map]; rfl
  have hok' : ∀ s ∈ segs.map PSeg.seg, s.OK := by
    intro s hs
    obtain ⟨g, hg, rfl⟩ := List.mem_map.1 hs
    exact (hok g hg).written.ok
  have hlen : (segs.map PSeg.seg).length = segs.length := List.length_map ..
  have hleft : ∀ L : List Int, ((if isPos then [] else []) : List Int) = [] := fun _ => by cases isPos <;> rfl
  -- looking for a term in a field
  have look : ∀ (te : MTE) (f : Int) (t : Term), FieldOf mr segs.length f → MStands mr (segs.map PSeg.seg) te ⟨termsIn mr (segs.map PSeg.seg) f, .all⟩ →
      ∃ te' o mc', mteSkipTo mr te t = .ok (te', o) ∧ MStands mr (segs.map PSeg.seg) te' mc' ∧ (o = some t ↔ present mr segs f t = true) ∧
        (o = some t → te'.tis.map (obs (segs.map PSeg.seg) t) = (holders segs.length (termsIn mr (segs.map PSeg.seg) f) t).map (obs (segs.map PSeg.seg) t)) := by
    intro te f t hf hs
    obtain ⟨te', out, o, mc', e1, e2, e3, e4⟩ := mteStep_spec mr _ hmr' hok' te _ hs (.skipTo t) (fun f h => nomatch h)
    simp only [mteStep] at e1
    obtain ⟨⟨te1, o1⟩, e5, e1⟩ := Res.bind_eq_ok.1 e1
    simp only [Res.ok.injEq, Prod.mk.injEq] at e1
    obtain ⟨rfl, rfl⟩ := e1
    obtain ⟨e6, -⟩ := e2
    rw [hlen] at e6
    have ho : o1 = o := by
      cases o1 with
      | none => cases o with
        | none => rfl
        | some u => exact e3.elim
      | some v => cases o with
        | none => exact e3.elim
        | some u => rw [e3.1]
    subst ho
    refine ⟨te1, o1, mc', e5, e4, ?_, ?_⟩
    · rw [← inSome_present hok]
      constructor
      · intro ho; rw [ho] at e6; exact e6.1.1
      · intro hin
        exact leastTerm_unique (P := fun u => InSome segs.length (termsIn mr (segs.map PSeg.seg) f) u ∧ ¬ u < t) ⟨hin, List.lt_irrefl _⟩ (fun u hu => hu.2) e6
    · intro ho
      subst ho
      have := e3.2.2
      rwa [hlen] at this
  cases op with
  | seek f t =>
    obtain ⟨hf, huse⟩ := hop
    obtain ⟨te1, out, o, mc1, e1, ⟨-, rfl⟩, -, e4⟩ := mteStep_spec mr _ hmr' hok' m.te mc hte (.setField f) (fun g hg => by cases hg; rw [hlen]; exact hf)
    simp only [mteStep] at e1
    obtain ⟨te2, e5, e1⟩ := Res.bind_eq_ok.1 e1
    simp only [Res.ok.injEq, Prod.mk.injEq] at e1
    obtain ⟨rfl, rfl⟩ := e1
    obtain ⟨te', o', mc', l1, l2, l3, l4⟩ := look te2 f t hf e4
    simp only [mtdeStep, mtdeSeek, MPCur.step]
    rw [e5, Res.ok_bind, l1, Res.ok_bind]
    dsimp only
    have hd' : DRel segs isPos { m with te := te' } curs := ⟨hd.starts, hd.len, hd.tdesLen, hd.subs, hd.ptr⟩
    by_cases hp : present mr segs f t = true
    · have ho := l3.2 hp
      subst ho
      dsimp only
      rw [if_pos (strcmp_eq.2 rfl)]
      obtain ⟨m', curs', s1, s2, s3, s4, s5⟩ := mtdeSeekTe_spec (mr := mr) (f := f) (t := t) (tis := te'.tis) hok hd' (fun hi => by
        rw [if_pos hi] at huse
        exact (hfr huse).2) hp (l4 rfl)
      rw [s1, Res.ok_bind]
      refine ⟨m', rfl, ⟨mc', by rw [s2]; exact l2⟩, ⟨curs', s4, ?_⟩, by rw [s3, hp]; rfl, fun hh => nomatch hh⟩
      rw [hleft []]; exact s5
    · have hne : ∀ u, o' = some u → ¬ strcmp t u = 0 := by
        intro u hu hz
        rw [strcmp_eq] at hz
        subst hz
        exact hp (l3.1 hu)
      have hcur : m.cur = none := by
        have : c.ended = true := by
          by_cases hi : isPos = true
          · rw [if_pos hi] at huse
            exact (hfr huse).1
          · rw [if_neg hi] at huse
            exact huse.resolve_left hp
        rw [this] at hen
        cases hc : m.cur with
        | none => rfl
        | some p => rw [hc] at hen; cases hen
      have hmer : merged mr segs f t = [] := by
        unfold merged
        rw [List.flatMap_eq_nil_iff]
        intro i hi
        cases hw : writtenIn mr segs f t i with
        | none => rfl
        | some ps =>
          exfalso
          apply hp
          unfold present
          rw [List.any_eq_true]
          exact ⟨i, hi, by rw [hw]; rfl⟩
      have hpf : present mr segs f t = false := by cases hx : present mr segs f t with
        | true => exact absurd hx hp
        | false => rfl
      refine ⟨{ m with te := te', state := m.state.map fun _ => false }, ?_, ?_⟩
      · cases o' with
        | none => rfl
        | some u => dsimp only; rw [if_neg (hne u rfl)]; rfl
      refine ⟨⟨mc', l2⟩, ⟨curs, ⟨hd.starts, by simp [hd.len], hd.tdesLen, hd.subs, hd.ptr⟩, ?_⟩, ?_, fun hh => nomatch hh⟩
      · rw [hmer, hleft []]
        unfold Stand
        dsimp only
        rw [hcur]
        refine ⟨rfl, rfl, fun i _ => ?_⟩
        rw [List.getElem?_map]
        cases m.state[i]? with
        | none => exact fun hh => nomatch hh
        | some b => exact fun hh => nomatch hh
      · dsimp only
        rw [hcur, hpf]; rfl
  | seekTe f t =>
    obtain ⟨hf, huse⟩ := hop
    obtain ⟨te2, e1, e2⟩ := mteNew_none mr _ hmr' hok' f (by rw [hlen]; exact hf)
    obtain ⟨te', o', mc', l1, l2, l3, l4⟩ := look te2 f t hf e2
    simp only [mtdeStep, MPCur.step]
    rw [e1, Res.ok_bind, l1, Res.ok_bind]
    dsimp only
    by_cases hp : present mr segs f t = true
    · rw [if_pos (l3.2 hp), if_pos hp]
      obtain ⟨m', curs', s1, s2, s3, s4, s5⟩ := mtdeSeekTe_spec (mr := mr) (f := f) (t := t) (tis := te'.tis) hok hd (fun hi => (hfr (huse hi)).2) hp (l4 (l3.2 hp))
      rw [s1, Res.ok_bind]
      refine ⟨m', rfl, ⟨mc, by rw [s2]; exact hte⟩, ⟨curs', s4, ?_⟩, s3, fun hh => nomatch hh⟩
      rw [hleft []]; exact s5
    · rw [if_neg (fun ho => hp (l3.1 ho)), if_neg hp]
      exact ⟨m, rfl, ⟨mc, hte⟩, ⟨curs, hd, hst⟩, hen, fun hh => nomatch hh⟩
  | next =>
    obtain ⟨m', b, e1, hs, curs', e2, e3, e4, e5, e6⟩ := mtdeNext_spec hok (m.state.length + 2) m curs _ _ hd hst (by omega) (by have := hd.len; have := hd.ptr; omega)
    simp only [mtdeStep, MPCur.step]
    rw [e1, Res.ok_bind]
    refine ⟨m', ?_, ⟨mc, by rw [hs.2.2]; exact hte⟩, ⟨curs', e2, ?_⟩, e4, fun hh => nomatch hh⟩
    · unfold mdocOut
      cases hr : c.cur.rest with
      | nil => rw [hr] at e3; rw [e3]; rfl
      | cons q rs =>
        rw [hr] at e3
        rw [e3]
        dsimp only
        rw [if_pos (by rfl), e6 q rs hr]
        rfl
    · by_cases hi : isPos = true
      · rw [if_pos hi]; exact e5
      · rw [if_neg hi]
        have : isPos = false := by simpa using hi
        subst this
        exact stand_left e5
  | skipTo n =>
    obtain ⟨m', b, e1, hs, curs', e2, e3, e4, e5, e6⟩ := mtdeSkipTo_spec hok hop n (m.state.length + 2) m curs _ _ hd hst (by omega) (fun _ => by have := hd.len; have := hd.ptr; omega)
    simp only [mtdeStep, MPCur.step]
    rw [e1, Res.ok_bind]
    refine ⟨m', ?_, ⟨mc, by rw [hs.2.2]; exact hte⟩, ⟨curs', e2, ?_⟩, e4, fun hh => nomatch hh⟩
    · unfold mdocOut
      cases hr : c.cur.rest.dropWhile (fun p => decide ((p.doc : Int) < n)) with
      | nil => rw [hr] at e3; rw [e3]; rfl
      | cons q rs =>
        rw [hr] at e3
        rw [e3]
        dsimp only
        rw [if_pos (by rfl), e6 q rs hr]
        rfl
    · by_cases hi : isPos = true
      · rw [if_pos hi]; exact e5
      · rw [if_neg hi]
        have : isPos = false := by simpa using hi
        subst this
        exact stand_left e5
  | read n =>
    obtain ⟨hi, hn⟩ := hop
    subst hi
    rw [if_neg (by decide)] at hst
    obtain ⟨m', ds, e1, hs, e2, curs', e3, e4, e5⟩ := mtdeRead_spec hok (2 * m.state.length + 2) n m curs _ hn hd hst (by omega) (fun p _ => by
      have := ite_le_one (curs p).rest.isEmpty
      have := hd.len
      omega)
    simp only [mtdeStep, MPCur.step]
    rw [e1, Res.ok_bind]
    refine ⟨m', by rw [e2], ⟨mc, by rw [hs.2.2]; exact hte⟩, ⟨curs', e3, e4⟩, by rw [e5, hen], fun hh => nomatch hh⟩
  | position =>
    obtain ⟨hi, he⟩ := hop
    subst hi
    rw [if_pos rfl] at hst
    obtain ⟨m', curs', e1, hs, e2, e3, e4⟩ := mtdePosition_spec hok hd hst (by rw [hen, he])
    simp only [mtdeStep, MPCur.step]
    rw [e1, Res.ok_bind]
    exact ⟨m', rfl, ⟨mc, by rw [hs.2.2]; exact hte⟩, ⟨curs', e3, e4⟩, by rw [e2, hen], fun hh => nomatch hh⟩

theorem mtdeRun_spec {mr : MR} {segs : List PSeg} (hmr : mr.subs = segs.map (·.sub)) (hok : ∀ g ∈ segs, PSegOK g) {isPos : Bool} : ∀ (ops : List PostOp) (m : MTDE) (c : MPCur),
    MPRel mr segs isPos m c → c.Usable mr segs isPos ops → mtdeRun mr m ops = .ok (c.run mr segs ops) := by
  intro ops
  induction ops with
  | nil => intro m c _ _; rfl
  | cons op ops ih =>
    intro m c h hu
    obtain ⟨m', e1, e2⟩ := mtdeStep_spec hmr hok h op hu.1
    unfold mtdeRun
    rw [e1, Res.ok_bind]
    dsimp only
    rw [ih m' _ e2 hu.2, Res.ok_bind]
    rfl

theorem startsFrom_get : ∀ (sizes : List Nat) (b i : Nat), i ≤ sizes.length → (Rdr.startsFrom b sizes)[i]? = some (b + (sizes.take i).sum) := by
  intro sizes
  induction sizes with
  | nil =>
    intro b i hi
    have : i = 0 := by simpa using hi
    subst this
    rfl
  | cons x xs ih =>
    intro b i hi
    unfold Rdr.startsFrom
    cases i with
    | zero => simp
    | succ i =>
      rw [List.getElem?_cons_succ, ih _ _ (by simpa using hi)]
      simp [Nat.add_assoc]

/-- **C24.** An enumerator of the documents, or positions, of terms over several segments, in any
sequence of usable calls, gives what one over the merged documents gives: each segment's documents
that are not deleted, shifted by the number of documents before the segment, and nothing of a term
sought before. What is missing are the calls that `MPCur.usable` leaves out, on which the code is wrong
(below). -/
theorem c24_session_partial (mr : MR) (segs : List PSeg) (hmr : mr.subs = segs.map (·.sub)) (hw : ∀ g ∈ segs, OpenPSeg g) (h0 : FieldOf mr segs.length 0) (isPos : Bool) (ops : List PostOp)
    (hu : MPCur.Usable mr segs isPos ⟨⟨[], []⟩, true, true⟩ ops) :
    ∃ m, mtdeNew mr (Rdr.startsFrom 0 (segs.map (·.size))) (segs.map fun g => stdeNew isPos g.si g.del g.files.frq g.files.prx) = .ok m ∧
      mtdeRun mr m ops = .ok (MPCur.run mr segs ⟨⟨[], []⟩, true, true⟩ ops) := by
  have hok : ∀ g ∈ segs, PSegOK g := fun g hg => (hw g hg).ok
  have hmr' : mr.subs = (segs.map PSeg.seg).map (·.sub) := by rw [hmr, List.map_map]; rfl
  obtain ⟨te, e1, e2⟩ := mteNew_none mr (segs.map PSeg.seg) hmr' (by
    intro s hs
    obtain ⟨g, hg, rfl⟩ := List.mem_map.1 hs
    exact (hok g hg).written.ok) 0 (by rw [List.length_map]; exact h0)
  unfold mtdeNew
  rw [e1, Res.ok_bind]
  refine ⟨_, rfl, mtdeRun_spec hmr hok ops _ _ ⟨⟨_, e2⟩, ⟨fun _ => ⟨[], []⟩, ⟨?_, ?_, ?_, ?_, ?_⟩, ?_⟩, rfl, fun _ => ⟨rfl, ?_⟩⟩ hu⟩
  · intro i hi
    dsimp only
    rw [startsFrom_get _ _ _ (by simpa using hi), Nat.zero_add, ← List.map_take]
    rfl
  · dsimp only; rw [List.length_map, hmr, List.length_map]
  · simp
  · intro i g hg
    refine ⟨stdeNew isPos g.si g.del g.files.frq g.files.prx, ?_, subRel_new (hok g (List.mem_of_getElem? hg)) isPos, fun q hq => nomatch hq⟩
    dsimp only
    rw [List.getElem?_map, hg]
    rfl
  · exact (by decide : (-1 : Int) ≤ 0)
  · unfold Stand
    dsimp only
    refine ⟨rfl, by cases isPos <;> rfl, fun i _ => ?_⟩
    rw [List.getElem?_map]
    cases mr.subs[i]? with
    | none => exact fun hh => nomatch hh
    | some b => exact fun hh => nomatch hh
  · intro s hs
    obtain ⟨g, -, rfl⟩ := List.mem_map.1 hs
    rfl

theorem baseOf_mono (segs : List PSeg) {i j : Nat} (h : i ≤ j) : baseOf segs i ≤ baseOf segs j := by
  induction h with
  | refl => exact Nat.le_refl _
  | step _ ih =>
    rename_i j _
    refine Nat.le_trans ih ?_
    cases hg : segs[j]? with
    | some g => rw [baseOf_succ hg]; omega
    | none =>
      unfold baseOf
      have := List.getElem?_eq_none_iff.1 hg
      rw [List.take_of_length_le this, List.take_of_length_le (by omega)]
      exact Nat.le_refl _

theorem writtenIn_spec {mr : MR} {segs : List PSeg} {f : Int} {t : Term} {i : Nat} {ps : List Posting} (hw : ∀ g ∈ segs, OpenPSeg g) (h : writtenIn mr segs f t i = some ps) :
    ps.Pairwise (fun a b => a.doc < b.doc) ∧ ∀ p ∈ ps, baseOf segs i + p.doc < baseOf segs (i + 1) := by
  unfold writtenIn at h
  rw [Option.bind_eq_some_iff] at h
  obtain ⟨g, h1, h2⟩ := h
  rw [Option.map_eq_some_iff] at h2
  obtain ⟨qs, h3, rfl⟩ := h2
  have hg := hw g (List.mem_of_getElem? h1)
  obtain ⟨x, hx, y, hy, rfl⟩ := postingsOf_mem h3
  refine ⟨(hg.seg.postings x hx y hy).asc.sublist List.filter_sublist, fun p hp => ?_⟩
  rw [baseOf_succ h1]
  have := hg.docs x hx y hy p (List.mem_filter.1 hp).1
  omega

/-- **C24, ascending.** The merged documents ascend, and document `d` is among them exactly if some
segment has the term in a document that is not deleted whose number there is `d` less the number of
documents before that segment. -/
theorem c24_merged (mr : MR) (segs : List PSeg) (hw : ∀ g ∈ segs, OpenPSeg g) (f : Int) (t : Term) :
    (merged mr segs f t).Pairwise (fun a b => a.doc < b.doc) ∧
    ∀ q, q ∈ merged mr segs f t ↔ ∃ (i : Nat) (g : PSeg) (ps : List Posting) (p : Posting), segs[i]? = some g ∧ postingsOf g.fields (numberIn mr i f) t = some ps ∧ p ∈ ps ∧ g.dead p.doc = false ∧
      q = ⟨baseOf segs i + p.doc, p.freq, p.occ⟩ := by
  constructor
  · unfold merged
    have key : ∀ (k s : Nat), ((List.range' s k).flatMap fun i => shiftBy (baseOf segs i) ((writtenIn mr segs f t i).getD [])).Pairwise (fun a b => a.doc < b.doc) ∧
        ∀ q ∈ (List.range' s k).flatMap (fun i => shiftBy (baseOf segs i) ((writtenIn mr segs f t i).getD [])), baseOf segs s ≤ q.doc := by
      intro k
      induction k with
      | zero => intro s; exact ⟨List.Pairwise.nil, fun q hq => nomatch hq⟩
      | succ k ih =>
        intro s
        obtain ⟨h1, h2⟩ := ih (s + 1)
        rw [List.range'_succ, List.flatMap_cons]
        cases hps : writtenIn mr segs f t s with
        | none =>
          refine ⟨h1, fun q hq => ?_⟩
          exact Nat.le_trans (baseOf_mono segs (Nat.le_succ s)) (h2 q hq)
        | some ps =>
          obtain ⟨a1, a2⟩ := writtenIn_spec hw hps
          rw [Option.getD_some]
          refine ⟨List.pairwise_append.2 ⟨?_, h1, ?_⟩, ?_⟩
          · exact List.pairwise_map.2 (a1.imp fun h => by dsimp only; omega)
          · intro a ha b hb
            obtain ⟨p, hp, rfl⟩ := List.mem_map.1 ha
            exact Nat.lt_of_lt_of_le (a2 p hp) (h2 b hb)
          · intro q hq
            rcases List.mem_append.1 hq with hq | hq
            · obtain ⟨p, hp, rfl⟩ := List.mem_map.1 hq
              dsimp only; omega
            · exact Nat.le_trans (baseOf_mono segs (Nat.le_succ s)) (h2 q hq)
    rw [List.range_eq_range']
    exact (key segs.length 0).1
  · intro q
    unfold merged
    rw [List.mem_flatMap]
    constructor
    · rintro ⟨i, hi, hq⟩
      cases hps : writtenIn mr segs f t i with
      | none => rw [hps] at hq; cases hq
      | some ps =>
        rw [hps, Option.getD_some] at hq
        obtain ⟨p, hp, rfl⟩ := List.mem_map.1 hq
        unfold writtenIn at hps
        rw [Option.bind_eq_some_iff] at hps
        obtain ⟨g, h1, h2⟩ := hps
        rw [Option.map_eq_some_iff] at h2
        obtain ⟨qs, h3, rfl⟩ := h2
        obtain ⟨h4, h5⟩ := List.mem_filter.1 hp
        exact ⟨i, g, qs, p, h1, h3, h4, by simpa using h5, rfl⟩
    · rintro ⟨i, g, ps, p, h1, h2, h3, h4, rfl⟩
      refine ⟨i, List.mem_range.2 (List.getElem?_eq_some_iff.1 h1).1, ?_⟩
      have : writtenIn mr segs f t i = some (ps.filter fun p => !g.dead p.doc) := by
        unfold writtenIn
        rw [h1, Option.bind_some, h2]
        rfl
      rw [this, Option.getD_some]
      exact List.mem_map.2 ⟨p, List.mem_filter.2 ⟨h3, by simp [h4]⟩, rfl⟩

/-! ### Examples -/

/-- A segment written and opened, without deletions. -/
def openPSeg (ii si : Nat) (fields : List (Nat × List (Term × List Posting))) (size : Nat) : Res PSeg :=
  flush ii si fields >>= fun fs => sfiOpen fs.dict >>= fun sfi => .ok ⟨⟨sfi, fs.dict.tis⟩, ii, si, fields, fs, none, fun _ => false, size⟩

/-- "a" is in documents 0 and 2, "b" in document 1. -/
def one24 : List (Nat × List (Term × List Posting)) := [(0, [([97], [⟨0, 2, [5, 6]⟩, ⟨2, 1, [7]⟩]), ([98], [⟨1, 1, [9]⟩])])]

/-- "a" is in document 1, "b" in documents 0 and 1, in the first of which twice. -/
def two24 : List (Nat × List (Term × List Posting)) := [(0, [([97], [⟨1, 1, [3]⟩]), ([98], [⟨0, 2, [2, 8]⟩, ⟨1, 1, [4]⟩])])]

/-- The calls on an index of the two segments, of 3 and 2 documents. -/
def session24 (isPos : Bool) (ops : List PostOp) : Res (List PostOut) :=
  openPSeg 128 16 one24 3 >>= fun a => openPSeg 128 16 two24 2 >>= fun b =>
  let mr : MR := ⟨[a.sub, b.sub], none⟩
  mtdeNew mr (Rdr.startsFrom 0 [3, 2]) ([a, b].map fun g => stdeNew isPos g.si g.del g.files.frq g.files.prx) >>= fun m => mtdeRun mr m ops

/-- What it should give. -/
def spec24 (ops : List PostOp) : List PostOut :=
  let g (fields : List (Nat × List (Term × List Posting))) (n : Nat) : PSeg := ⟨⟨⟨0, 0, fun _ => none, []⟩, []⟩, 128, 16, fields, ⟨[], [], ⟨[], [], []⟩⟩, none, fun _ => false, n⟩
  MPCur.run ⟨[], none⟩ [g one24 3, g two24 2] ⟨⟨[], []⟩, true, true⟩ ops

example : session24 false [.seek 0 [97], .next, .next, .next, .next, .seek 0 [98], .skipTo 2, .next, .next, .seek 0 [99], .next, .seekTe 0 [97], .read 2, .read 2] =
    .ok [.done, .doc (some (0, 2)), .doc (some (2, 1)), .doc (some (4, 1)), .doc none, .done, .doc (some (3, 2)), .doc (some (4, 1)), .doc none, .done, .doc none, .done,
      .docs [(0, 2), (2, 1)], .docs [(4, 1)]] := by decide +kernel

example : spec24 [.seek 0 [97], .next, .next, .next, .next, .seek 0 [98], .skipTo 2, .next, .next, .seek 0 [99], .next, .seekTe 0 [97], .read 2, .read 2] =
    [.done, .doc (some (0, 2)), .doc (some (2, 1)), .doc (some (4, 1)), .doc none, .done, .doc (some (3, 2)), .doc (some (4, 1)), .doc none, .done, .doc none, .done,
      .docs [(0, 2), (2, 1)], .docs [(4, 1)]] := by decide +kernel

example : session24 true [.seek 0 [97], .next, .position, .position, .position, .skipTo 4, .position, .next] =
    .ok [.done, .doc (some (0, 2)), .pos 5, .pos 6, .pos (-1), .doc (some (4, 1)), .pos 3, .doc none] := by decide +kernel

/-- The segments are written and opened, and the calls are usable. -/
example : ∃ a b, openPSeg 128 16 one24 3 = .ok a ∧ openPSeg 128 16 two24 2 = .ok b ∧ OpenPSeg a ∧ OpenPSeg b ∧ FieldOf ⟨[a.sub, b.sub], none⟩ 2 0 ∧
    MPCur.Usable ⟨[a.sub, b.sub], none⟩ [a, b] false ⟨⟨[], []⟩, true, true⟩ [.seek 0 [97], .next, .seek 0 [98], .skipTo 2, .read 5, .seek 0 [99], .next] := by
  have hs1 : Segment 128 16 one24 := by
    constructor <;> try decide +kernel
    intro x hx y hy
    have : y.2 = [⟨0, 2, [5, 6]⟩, ⟨2, 1, [7]⟩] ∨ y.2 = [⟨1, 1, [9]⟩] := by
      simp only [one24, List.mem_cons, List.not_mem_nil, or_false] at hx
      subst hx
      simp only [List.mem_cons, List.not_mem_nil, or_false] at hy
      rcases hy with rfl | rfl <;> simp
    rcases this with h | h <;> rw [h] <;> constructor <;> decide
  have hs2 : Segment 128 16 two24 := by
    constructor <;> try decide +kernel
    intro x hx y hy
    have : y.2 = [⟨1, 1, [3]⟩] ∨ y.2 = [⟨0, 2, [2, 8]⟩, ⟨1, 1, [4]⟩] := by
      simp only [two24, List.mem_cons, List.not_mem_nil, or_false] at hx
      subst hx
      simp only [List.mem_cons, List.not_mem_nil, or_false] at hy
      rcases hy with rfl | rfl <;> simp
    rcases this with h | h <;> rw [h] <;> constructor <;> decide
  have hopen : ∀ fields n, Segment 128 16 fields → (∀ fs, flush 128 16 fields = .ok fs → fs.dict.tis.length < 2 ^ 64 ∧ fs.dict.tix.length < 2 ^ 64) →
      (∀ x ∈ fields, ∀ y ∈ x.2, ∀ p ∈ y.2, p.doc < n) → ∃ g, openPSeg 128 16 fields n = .ok g ∧ OpenPSeg g ∧ g.fields = fields ∧ g.si = 16 ∧ g.dead = (fun _ => false) ∧ g.size = n := by
    intro fields n hs hl hd
    obtain ⟨fs, e1, h1⟩ := dict_spec _ _ _ (flushed_dict hs (by decide)).fit
    have hfl : flush 128 16 fields = .ok ⟨(flushFields 16 [] [] fields).1, (flushFields 16 [] [] fields).2.1, fs⟩ := by
      unfold flush
      rw [if_neg (by decide)]
      dsimp only
      rw [e1]; rfl
    obtain ⟨l1, l2⟩ := hl _ hfl
    obtain ⟨sfi, e2, -⟩ := h1 l1 l2
    refine ⟨⟨⟨sfi, fs.tis⟩, 128, 16, fields, ⟨_, _, fs⟩, none, fun _ => false, n⟩, ?_, ⟨hs, (by decide : 0 < 16), hfl, l1, l2, e2, rfl, fun d => rfl, hd⟩, rfl, rfl, rfl, rfl⟩
    unfold openPSeg
    rw [hfl, Res.ok_bind]
    dsimp only
    rw [e2]; rfl
  have hc1 : (match flush 128 16 one24 with | .ok fs => decide (fs.dict.tis.length < 2 ^ 64 ∧ fs.dict.tix.length < 2 ^ 64) | _ => true) = true := by decide +kernel
  have hc2 : (match flush 128 16 two24 with | .ok fs => decide (fs.dict.tis.length < 2 ^ 64 ∧ fs.dict.tix.length < 2 ^ 64) | _ => true) = true := by decide +kernel
  obtain ⟨a, a1, a2, a3, a4, a5, a6⟩ := hopen one24 3 hs1 (fun fs h => by rw [h] at hc1; exact of_decide_eq_true hc1) (by decide)
  obtain ⟨b, b1, b2, b3, b4, b5, b6⟩ := hopen two24 2 hs2 (fun fs h => by rw [h] at hc2; exact of_decide_eq_true hc2) (by decide)
  refine ⟨a, b, a1, b1, a2, b2, trivial, ?_⟩
  have hp1 : ∀ t, postingsOf one24 0 t ≠ none ∨ postingsOf two24 0 t ≠ none → present ⟨[a.sub, b.sub], none⟩ [a, b] 0 t = true := by
    intro t ht
    rw [present_iff]
    rcases ht with ht | ht
    · obtain ⟨ps, hps⟩ := Option.ne_none_iff_exists'.1 ht
      exact ⟨0, a, ps, rfl, by rw [a3]; exact hps⟩
    · obtain ⟨ps, hps⟩ := Option.ne_none_iff_exists'.1 ht
      exact ⟨1, b, ps, rfl, by rw [b3]; exact hps⟩
  have hm : (merged ⟨[a.sub, b.sub], none⟩ [a, b] 0 [98]) = [⟨1, 1, [9]⟩, ⟨3, 2, [2, 8]⟩, ⟨4, 1, [4]⟩] := by
    simp only [merged, writtenIn, List.length_cons, List.length_nil, List.range, List.range.loop, List.flatMap_cons, List.flatMap_nil, List.getElem?_cons_zero, List.getElem?_cons_succ, Option.bind_some, a3, b3, a5, b5, baseOf, List.take, List.map, a6]
    rfl
  refine ⟨⟨trivial, Or.inl (hp1 _ (Or.inl (by decide)))⟩, trivial, ⟨trivial, Or.inl (hp1 _ (Or.inl (by decide)))⟩, ?_, ⟨rfl, by decide⟩, ⟨trivial, Or.inr ?_⟩, trivial, trivial⟩
  · intro g hg
    simp only [List.mem_cons, List.not_mem_nil, or_false] at hg
    rcases hg with rfl | rfl <;> omega
  · simp only [MPCur.step, hm]
    decide +kernel

/-- **C24, an absent term.** After seeking a term that is in no segment the enumerator goes on with the
current segment's documents of the term sought before (index.c 3299–3301 leaves curr_tde). -/
theorem c24_absent_term_wrong :
    session24 false [.seek 0 [97], .next, .seek 0 [99], .next, .next] = .ok [.done, .doc (some (0, 2)), .done, .doc (some (2, 1)), .doc none] ∧
    spec24 [.seek 0 [97], .next, .seek 0 [99], .next, .next] = [.done, .doc (some (0, 2)), .done, .doc none, .doc none] := by
  refine ⟨by decide +kernel, by decide +kernel⟩

/-- **C24, reading no documents.** Reading none ends the enumerator (index.c 3338–3339 takes it to mean
that the segment has none left). -/
theorem c24_read_none_wrong :
    session24 false [.seek 0 [97], .read 0, .next] = .ok [.done, .docs [], .doc none] ∧
    spec24 [.seek 0 [97], .read 0, .next] = [.done, .docs [], .doc (some (0, 2))] := by
  refine ⟨by decide +kernel, by decide +kernel⟩

/-- **C24, positions of a second term.** When the positions of a document have not all been read, the
first document of the next term sought shows later positions: prx_cnt is not reset (index.c 3279), so
that many positions of the new term are skipped. -/
theorem c24_positions_wrong :
    session24 true [.seek 0 [97], .skipTo 4, .seek 0 [98], .skipTo 3, .position, .position] = .ok [.done, .doc (some (4, 1)), .done, .doc (some (3, 2)), .pos 6, .pos 10] ∧
    spec24 [.seek 0 [97], .skipTo 4, .seek 0 [98], .skipTo 3, .position, .position] = [.done, .doc (some (4, 1)), .done, .doc (some (3, 2)), .pos 2, .pos 8] := by
  refine ⟨by decide +kernel, by decide +kernel⟩
#print axioms c24_session_partial
#print axioms c24_merged
#print axioms c24_absent_term_wrong
#print axioms c24_read_none_wrong
#print axioms c24_positions_wrong
end Ferret.Props
