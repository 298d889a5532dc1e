import Verif.Lemmas.TermFields

/-! C20: the term dictionary. -/

namespace Ferret.Props
open Ferret Ferret.Expand Ferret.Dict

/-! ### What is written -/

/-- The terms of a field can be written: in strictly increasing order, each shorter than 255 bytes,
with numbers that fit their types and pointers that do not decrease. -/
structure Writable (es : List (Term × TI)) : Prop where
  asc : es.Pairwise fun a b => a.1 < b.1
  frqs : es.Pairwise fun a b => a.2.frqPtr ≤ b.2.frqPtr
  prxs : es.Pairwise fun a b => a.2.prxPtr ≤ b.2.prxPtr
  fit : ∀ e ∈ es, e.1.length < 255 ∧ e.2.docFreq < 2 ^ 32 ∧ e.2.frqPtr < 2 ^ 64 ∧ e.2.prxPtr < 2 ^ 64 ∧ e.2.skip < 2 ^ 64

/-- The fields of a dictionary, by number, each with its terms; index interval `ii`, skip interval `si`. -/
structure WritableDict (ii si : Nat) (fields : List (Nat × List (Term × TI))) : Prop where
  iiPos : 0 < ii
  iiLt : ii < 2 ^ 31
  siLt : si < 2 ^ 31
  count : fields.length < 2 ^ 31
  nums : (fields.map (·.1)).Nodup
  numLt : ∀ x ∈ fields, x.1 < 2 ^ 31
  sizes : ∀ x ∈ fields, x.2.length < 2 ^ 31
  terms : ∀ x ∈ fields, Writable x.2

/-! ### What an enumerator should do -/

/-- What is seen of an entry: the term, its document frequency, its pointers and, if it has at least as
many documents as the skip interval, its skip offset. -/
def seen (si : Nat) (e : Term × TI) : Term × Nat × Nat × Nat × Option Nat :=
  (e.1, e.2.docFreq, e.2.frqPtr, e.2.prxPtr, if e.2.docFreq ≥ si then some e.2.skip else none)

inductive EnumOp where
  | setField (f : Int)
  | next
  | skipTo (t : Term)
  | getTerm (p : Nat)

/-- A cursor: the entries of its field and how many are before it. -/
structure Cursor where
  entries : List (Term × TI)
  at' : Nat

/-- * Setting a field goes before its first term.
* `next` gives the following term, if any.
* `skipTo t` gives the first of all terms that is not below `t`, if any, wherever the cursor is.
* `getTerm p` gives the term number `p`, if any. -/
def Cursor.step (fields : List (Nat × List (Term × TI))) (c : Cursor) : EnumOp → Cursor × Option (Term × TI)
  | .setField f => (⟨((fields.find? fun x => decide ((x.1 : Int) = f)).map (·.2)).getD [], 0⟩, none)
  | .next => match c.entries[c.at']? with
    | some e => (⟨c.entries, c.at' + 1⟩, some e)
    | none => (c, none)
  | .skipTo t => match c.entries.findIdx? fun e => decide (¬ e.1 < t) with
    | some j => (⟨c.entries, j + 1⟩, c.entries[j]?)
    | none => (⟨c.entries, c.entries.length⟩, none)
  | .getTerm p => match c.entries[p]? with
    | some e => (⟨c.entries, p + 1⟩, some e)
    | none => (c, none)

def Cursor.run (fields : List (Nat × List (Term × TI))) : Cursor → List EnumOp → List (Option (Term × TI))
  | _, [] => []
  | c, op :: ops => (c.step fields op).2 :: Cursor.run fields (c.step fields op).1 ops

/-! ### What the enumerator does -/

/-- One call; the term returned and te->curr_ti. -/
def enumStep (sfi : SFI) (e : STE) : EnumOp → Res (STE × Option (Term × TI))
  | .setField f => .ok (steSetField sfi e f, none)
  | .next => steNext sfi.skipInterval e >>= fun r => .ok (r.1, r.2.map (·, r.1.ti))
  | .skipTo t => scanTo sfi e t >>= fun r => .ok (r.1, r.2.map (·, r.1.ti))
  | .getTerm p => getTerm sfi e p >>= fun r => .ok (r.1, r.2.map (·, r.1.ti))

def enumRun (sfi : SFI) : STE → List EnumOp → Res (List (Option (Term × TI)))
  | _, [] => .ok []
  | e, op :: ops => enumStep sfi e op >>= fun r => enumRun sfi r.1 ops >>= fun rs => .ok (r.2 :: rs)

/-! ### Proof -/

theorem fitsAll_of : ∀ (es : List (Term × TI)) (last : Term × TI), Writable es → (∀ e ∈ es, last.2.frqPtr ≤ e.2.frqPtr ∧ last.2.prxPtr ≤ e.2.prxPtr) → FitsAll last es := by
  intro es
  induction es with
  | nil => intros; exact trivial
  | cons e es ih =>
    intro last hw hl
    obtain ⟨a1, a2⟩ := List.pairwise_cons.1 hw.asc
    obtain ⟨b1, b2⟩ := List.pairwise_cons.1 hw.frqs
    obtain ⟨c1, c2⟩ := List.pairwise_cons.1 hw.prxs
    obtain ⟨f1, f2, f3, f4, f5⟩ := hw.fit e (List.mem_cons_self ..)
    obtain ⟨g1, g2⟩ := hl e (List.mem_cons_self ..)
    exact ⟨⟨f1, f2, f3, f4, f5, g1, g2⟩, ih e ⟨a2, b2, c2, fun x hx => hw.fit x (List.mem_cons_of_mem _ hx)⟩ fun x hx => ⟨b1 x hx, c1 x hx⟩⟩

theorem WritableDict.fit {ii si : Nat} {fields : List (Nat × List (Term × TI))} (h : WritableDict ii si fields) : FieldsFit ii si fields :=
  ⟨h.iiPos, h.iiLt, h.siLt, h.count, h.nums, h.numLt, h.sizes, fun x hx => fitsAll_of x.2 start (h.terms x hx) fun _ _ => ⟨Nat.zero_le _, Nat.zero_le _⟩⟩

theorem WritableDict.asc {ii si : Nat} {fields : List (Nat × List (Term × TI))} (h : WritableDict ii si fields) (f : Int) : Asc (entriesOf fields f) := by
  unfold entriesOf
  cases hf : fields.find? (fun x => decide ((x.1 : Int) = f)) with
  | none => exact List.Pairwise.nil
  | some x => exact (h.terms x (List.mem_of_find?_eq_some hf)).asc

/-- The enumerator stands where the cursor does. -/
def Stands (sfi : SFI) (tis : List Byte) (fields : List (Nat × List (Term × TI))) (e : STE) (c : Cursor) : Prop :=
  c.entries = entriesOf fields e.field ∧ (At sfi.skipInterval tis e c.entries c.at' ∨ (Ended tis e c.entries ∧ c.at' = c.entries.length))

theorem seen_agrees {si : Nat} {a : TI} {e : Term × TI} (h : Agrees si a e.2) : seen si (e.1, a) = seen si e := by
  unfold seen
  simp only [h.docFreq, h.frq, h.prx]
  by_cases hs : e.2.docFreq ≥ si
  · rw [if_pos hs, if_pos hs, h.skip hs]
  · rw [if_neg hs, if_neg hs]

/-- The fields of an open dictionary. -/
def DictOK (sfi : SFI) (tis : List Byte) (fields : List (Nat × List (Term × TI))) : Prop :=
  ∀ f : Int, Asc (entriesOf fields f) ∧ ((sfi.dict f = none ∧ entriesOf fields f = []) ∨ ∃ sti, sfi.dict f = some sti ∧ FieldOK sfi tis sti (entriesOf fields f))

theorem findIdx_below (t : Term) : ∀ es : List (Term × TI), Asc es → es.findIdx? (fun e => decide (¬ e.1 < t)) = if below es t < es.length then some (below es t) else none := by
  intro es
  induction es with
  | nil => intro _; rfl
  | cons e es ih =>
    intro hs
    rw [List.findIdx?_cons, ih (List.pairwise_cons.1 hs).2]
    unfold below
    rw [List.takeWhile_cons]
    cases hlt : strLt e.1 t with
    | true =>
      have : e.1 < t := (strLt_iff _ _).1 hlt
      simp only [this, not_true_eq_false, decide_false, Bool.false_eq_true, if_false, if_true, List.length_cons]
      split
      · rw [if_pos (by omega)]; rfl
      · rw [if_neg (by omega)]; rfl
    | false =>
      have : ¬ e.1 < t := fun h => by rw [(strLt_iff _ _).2 h] at hlt; cases hlt
      simp [this]

theorem enumStep_spec {sfi : SFI} {tis : List Byte} {fields : List (Nat × List (Term × TI))} (hd : DictOK sfi tis fields) (e : STE) (c : Cursor) (hst : Stands sfi tis fields e c) (hfile : e.file = tis) (op : EnumOp) :
    ∃ e' o, enumStep sfi e op = .ok (e', o) ∧ Stands sfi tis fields e' (c.step fields op).1 ∧ e'.file = tis ∧
      o.map (seen sfi.skipInterval) = (c.step fields op).2.map (seen sfi.skipInterval) := by
  obtain ⟨hent, hat⟩ := hst
  have hat' : (∃ i, At sfi.skipInterval tis e c.entries i) ∨ Ended tis e c.entries := hat.imp (fun h => ⟨_, h⟩) (·.1)
  have hasc := (hd e.field).1
  rw [← hent] at hasc
  have obs : ∀ {e' : STE} {i : Nat} {x : Term × TI}, c.entries[i]? = some x → At sfi.skipInterval tis e' c.entries (i + 1) → seen sfi.skipInterval (x.1, e'.ti) = seen sfi.skipInterval x := by
    intro e' i x hx h
    have := h.ti
    rw [entryAt_succ _ _ _ _ hx] at this
    exact seen_agrees this
  cases op with
  | setField f =>
    refine ⟨_, none, rfl, ⟨?_, Or.inl ?_⟩, ?_, rfl⟩
    · unfold steSetField
      cases hs : sfi.dict f <;> rfl
    · show At _ _ _ (entriesOf fields f) 0
      unfold steSetField
      rcases (hd f).2 with ⟨h1, h2⟩ | ⟨sti, h1, h2⟩
      · rw [h1, h2]
        exact ⟨hfile, rfl, rfl, Nat.le_refl _, rfl, Agrees.refl _ _, e.is, rfl⟩
      · rw [h1]
        obtain ⟨rest, hb⟩ := h2.bytes
        exact ⟨hfile, h2.size, rfl, Nat.zero_le _, rfl, Agrees.refl _ _, rest, by show e.file.drop _ = _; rw [hfile, hb]; rfl⟩
    · unfold steSetField
      cases hs : sfi.dict f <;> exact hfile
  | next =>
    simp only [enumStep, Cursor.step]
    cases hx : c.entries[c.at']? with
    | some x =>
      rcases hat with h | ⟨-, h⟩
      · have hfits : FitsAll start c.entries := by
          rcases (hd e.field).2 with ⟨-, h2⟩ | ⟨sti, -, h2⟩
          · rw [hent, h2]; exact trivial
          · rw [hent]; exact h2.fits
        obtain ⟨e', e1, a1, f1⟩ := steNext_at hfits h x hx
        rw [e1, Res.ok_bind]
        refine ⟨_, _, rfl, ⟨by rw [f1]; exact hent, Or.inl a1⟩, a1.file, ?_⟩
        simp only [Option.map_some, obs hx a1]
      · rw [h] at hx; simp at hx
    | none =>
      have hlen : At sfi.skipInterval tis e c.entries c.entries.length ∨ Ended tis e c.entries := by
        rcases hat with h | ⟨h, -⟩
        · left
          have h1 := h.le
          rw [List.getElem?_eq_none_iff] at hx
          have : c.at' = c.entries.length := by omega
          rw [this] at h; exact h
        · exact Or.inr h
      obtain ⟨e', e1, a1, f1⟩ := steNext_end (si := sfi.skipInterval) hlen
      rw [e1, Res.ok_bind]
      refine ⟨_, _, rfl, ⟨by rw [f1]; exact hent, Or.inr ⟨a1, ?_⟩⟩, a1.file, rfl⟩
      rcases hat with h | ⟨-, h⟩
      · have h1 := h.le
        rw [List.getElem?_eq_none_iff] at hx
        show c.at' = c.entries.length
        omega
      · exact h
  | skipTo t =>
    simp only [enumStep, Cursor.step]
    rw [findIdx_below t _ hasc]
    have found : ∀ {e' o}, scanTo sfi e t = .ok (e', o) → e'.field = e.field → o = c.entries[below c.entries t]?.map (·.1) →
        ((below c.entries t < c.entries.length ∧ At sfi.skipInterval tis e' c.entries (below c.entries t + 1)) ∨ (below c.entries t = c.entries.length ∧ Ended tis e' c.entries)) →
        ∃ e' o, (scanTo sfi e t >>= fun r => Res.ok (r.1, r.2.map (·, r.1.ti))) = .ok (e', o) ∧
          Stands sfi tis fields e' (match (if below c.entries t < c.entries.length then some (below c.entries t) else none) with
            | some j => ((⟨c.entries, j + 1⟩ : Cursor), c.entries[j]?)
            | none => (⟨c.entries, c.entries.length⟩, none)).1 ∧ e'.file = tis ∧
          o.map (seen sfi.skipInterval) = (match (if below c.entries t < c.entries.length then some (below c.entries t) else none) with
            | some j => ((⟨c.entries, j + 1⟩ : Cursor), c.entries[j]?)
            | none => (⟨c.entries, c.entries.length⟩, none)).2.map (seen sfi.skipInterval) := by
      intro e' o e1 f1 ho hres
      rw [e1, Res.ok_bind]
      rcases hres with ⟨hlt, a1⟩ | ⟨hlt, a1⟩
      · rw [if_pos hlt]
        have hx : c.entries[below c.entries t]? = some c.entries[below c.entries t] := List.getElem?_eq_getElem hlt
        refine ⟨_, _, rfl, ⟨by rw [f1]; exact hent, Or.inl a1⟩, a1.file, ?_⟩
        rw [ho, hx]
        simp only [Option.map_some, obs hx a1]
        rw [hx]; rfl
      · rw [if_neg (by omega)]
        refine ⟨_, _, rfl, ⟨by rw [f1]; exact hent, Or.inr ⟨a1, rfl⟩⟩, a1.file, ?_⟩
        rw [ho, hlt]; simp
    have nothing : c.entries = [] → scanTo sfi e t = .ok (e, none) → ∃ e' o, (scanTo sfi e t >>= fun r => Res.ok (r.1, r.2.map (·, r.1.ti))) = .ok (e', o) ∧
          Stands sfi tis fields e' (match (if below c.entries t < c.entries.length then some (below c.entries t) else none) with
            | some j => ((⟨c.entries, j + 1⟩ : Cursor), c.entries[j]?)
            | none => (⟨c.entries, c.entries.length⟩, none)).1 ∧ e'.file = tis ∧
          o.map (seen sfi.skipInterval) = (match (if below c.entries t < c.entries.length then some (below c.entries t) else none) with
            | some j => ((⟨c.entries, j + 1⟩ : Cursor), c.entries[j]?)
            | none => (⟨c.entries, c.entries.length⟩, none)).2.map (seen sfi.skipInterval) := by
      intro hnil e1
      rw [e1, Res.ok_bind]
      refine ⟨e, none, rfl, ?_, hfile, ?_⟩
      · have hl : ¬ below c.entries t < c.entries.length := by rw [hnil]; simp
        rw [if_neg hl]
        refine ⟨hent, ?_⟩
        rcases hat with h | ⟨h, -⟩
        · left
          have h1 := h.le
          have h2 : c.at' = c.entries.length := by rw [hnil] at h1 ⊢; simp at h1 ⊢; omega
          rw [← h2]; exact h
        · exact Or.inr ⟨h, rfl⟩
      · have hl : ¬ below c.entries t < c.entries.length := by rw [hnil]; simp
        rw [if_neg hl]
    rcases (hd e.field).2 with ⟨h1, h2⟩ | ⟨sti, h1, h2⟩
    · rw [← hent] at h2
      exact nothing h2 (by unfold scanTo; rw [h1])
    · rw [← hent] at h2
      by_cases hpos : 0 < c.entries.length
      · obtain ⟨e', o, e1, f1, ho, hres⟩ := scanTo_spec hasc h2 hpos h1 t hat'
        exact found e1 f1 ho hres
      · refine nothing (List.length_eq_zero_iff.1 (by omega)) ?_
        unfold scanTo
        rw [h1]
        dsimp only
        rw [if_neg (by rw [h2.size]; omega)]
  | getTerm p =>
    simp only [enumStep, Cursor.step]
    cases hx : c.entries[p]? with
    | some x =>
      have hlt : p < c.entries.length := (List.getElem?_eq_some_iff.1 hx).1
      rcases (hd e.field).2 with ⟨-, h2⟩ | ⟨sti, h1, h2⟩
      · rw [← hent] at h2; rw [h2] at hlt; simp at hlt
      · rw [← hent] at h2
        obtain ⟨e', e1, a1, f1⟩ := getTerm_spec h2 h1 p hlt hat'
        rw [e1, Res.ok_bind]
        have hxe : c.entries[p] = x := by rw [List.getElem?_eq_getElem hlt] at hx; exact Option.some.inj hx
        rw [hxe]
        refine ⟨_, _, rfl, ⟨by rw [f1]; exact hent, Or.inl a1⟩, a1.file, ?_⟩
        simp only [Option.map_some, obs hx a1]
    | none =>
      have hsize : e.size = c.entries.length := hat'.elim (fun ⟨i, h⟩ => h.size) (·.size)
      rw [List.getElem?_eq_none_iff] at hx
      unfold getTerm
      rw [if_pos (by omega), Res.ok_bind]
      exact ⟨_, _, rfl, ⟨hent, hat⟩, hfile, rfl⟩

theorem enumRun_spec {sfi : SFI} {tis : List Byte} {fields : List (Nat × List (Term × TI))} (hd : DictOK sfi tis fields) : ∀ (ops : List EnumOp) (e : STE) (c : Cursor), Stands sfi tis fields e c → e.file = tis →
    ∃ rs, enumRun sfi e ops = .ok rs ∧ rs.map (·.map (seen sfi.skipInterval)) = (c.run fields ops).map (·.map (seen sfi.skipInterval)) := by
  intro ops
  induction ops with
  | nil => intro e c _ _; exact ⟨[], rfl, rfl⟩
  | cons op ops ih =>
    intro e c hst hf
    obtain ⟨e', o, e1, h1, h2, h3⟩ := enumStep_spec hd e c hst hf op
    obtain ⟨rs, e2, h4⟩ := ih e' _ h1 h2
    refine ⟨o :: rs, ?_, ?_⟩
    · unfold enumRun
      rw [e1, Res.ok_bind, e2]; rfl
    · rw [List.map_cons, h3, h4]; rfl

/-- The enumerator before any field is set. -/
theorem stands_new (sfi : SFI) (tis : List Byte) (fields : List (Nat × List (Term × TI))) : Stands sfi tis fields (steNew tis) ⟨[], 0⟩ := by
  refine ⟨?_, Or.inl ⟨rfl, rfl, rfl, Nat.le_refl _, rfl, Agrees.refl _ _, tis, rfl⟩⟩
  unfold entriesOf
  have : fields.find? (fun x => decide ((x.1 : Int) = (steNew tis).field)) = none := by
    rw [List.find?_eq_none]
    intro x _

    intro hc
    have : (x.1 : Int) = -1 := of_decide_eq_true hc
    omega
  rw [this]; rfl

/-- **C20, enumeration and seeking.** Any dictionary that can be written (and whose files are not
larger than 2^64 bytes) is written, can be opened, and an enumerator over it gives in any sequence
of calls — setting fields, stepping, seeking terms forwards and backwards, getting terms by number,
also after the end — exactly the terms, frequencies and pointers that were written. -/
theorem c20_enumerator (ii si : Nat) (fields : List (Nat × List (Term × TI))) (h : WritableDict ii si fields) :
    ∃ fs, writeDict ii si fields = .ok fs ∧ (fs.tis.length < 2 ^ 64 → fs.tix.length < 2 ^ 64 →
      ∃ sfi, sfiOpen fs = .ok sfi ∧ ∀ ops : List EnumOp, ∃ rs, enumRun sfi (steNew fs.tis) ops = .ok rs ∧
        rs.map (·.map (seen si)) = (Cursor.run fields ⟨[], 0⟩ ops).map (·.map (seen si))) := by
  obtain ⟨fs, e1, h1⟩ := dict_spec ii si fields h.fit
  refine ⟨fs, e1, fun l1 l2 => ?_⟩
  obtain ⟨sfi, e2, hsi, -, hd⟩ := h1 l1 l2
  refine ⟨sfi, e2, fun ops => ?_⟩
  have := enumRun_spec (fun f => ⟨h.asc f, hd f⟩) ops (steNew fs.tis) ⟨[], 0⟩ (stands_new sfi fs.tis fields) rfl
  rwa [hsi] at this

/-! ### Lookups -/

/-- A lookup of a term in a field, by the reader of one thread. -/
def lookupRun (sfi : SFI) (tis : List Byte) : TIR → List (Int × Term) → Res (List (Option TI))
  | _, [] => .ok []
  | r, (f, t) :: qs => tirGetTiField sfi tis r f t >>= fun x => lookupRun sfi tis x.1 qs >>= fun xs => .ok (x.2 :: xs)

/-- The entry of a term. -/
def entryOf (fields : List (Nat × List (Term × TI))) (f : Int) (t : Term) : Option (Term × TI) :=
  (((fields.find? fun x => decide ((x.1 : Int) = f)).map (·.2)).getD []).find? fun e => decide (e.1 = t)

theorem find_below (t : Term) (es : List (Term × TI)) (hs : Asc es) : es.find? (fun e => decide (e.1 = t)) = es[below es t]?.filter (fun e => decide (e.1 = t)) := by
  cases hf : es.find? (fun e => decide (e.1 = t)) with
  | some x =>
    have hx1 : x.1 = t := by simpa using List.find?_some hf
    obtain ⟨m, hm⟩ := List.getElem?_of_mem (List.mem_of_find?_eq_some hf)
    have h1 : ¬ m < below es t := fun h => by
      have := (below_iff t es hs m x hm).1 h
      rw [hx1] at this
      exact List.lt_irrefl _ this
    have h2 : m ≤ below es t := by
      cases m with
      | zero => omega
      | succ m =>
        have hlt : m + 1 < es.length := (List.getElem?_eq_some_iff.1 hm).1
        have hx' : es[m]? = some es[m] := List.getElem?_eq_getElem (by omega)
        refine (below_iff t es hs m _ hx').2 ?_
        have := (List.pairwise_iff_getElem.1 hs) m (m + 1) (by omega) hlt (by omega)
        rw [List.getElem?_eq_getElem hlt] at hm
        rw [Option.some.inj hm, hx1] at this
        exact this
    rw [show below es t = m by omega, hm]
    simp [Option.filter, hx1]
  | none =>
    cases hb : es[below es t]? with
    | none => rfl
    | some y =>
      have := List.find?_eq_none.1 hf y (List.mem_of_getElem? hb)
      simp only [decide_eq_true_eq] at this
      simp [Option.filter, this]

/-- The reader of a thread: its enumerator is in order. -/
def ReaderOK (sfi : SFI) (tis : List Byte) (fields : List (Nat × List (Term × TI))) (r : TIR) : Prop :=
  (∃ c, Stands sfi tis fields (tirEnum sfi tis r) c) ∧ (tirEnum sfi tis r).file = tis ∧ (tirEnum sfi tis r).field = r.field

theorem readerOK_open {sfi : SFI} {tis : List Byte} {fields : List (Nat × List (Term × TI))} (hd : DictOK sfi tis fields) : ReaderOK sfi tis fields tirOpen := by
  have hnew : tirEnum sfi tis tirOpen = steSetField sfi (steNew tis) (-1) := rfl
  obtain ⟨e', o, q1, q2, q3, -⟩ := enumStep_spec hd _ _ (stands_new sfi tis fields) rfl (.setField (-1))
  simp only [enumStep, Res.ok.injEq, Prod.mk.injEq] at q1
  refine ⟨⟨_, by rw [hnew, q1.1]; exact q2⟩, by rw [hnew, q1.1]; exact q3, ?_⟩
  rw [hnew]
  unfold steSetField
  cases sfi.dict (-1) <;> rfl

/-- One lookup. -/
theorem lookup_spec {sfi : SFI} {tis : List Byte} {fields : List (Nat × List (Term × TI))} (hdict : DictOK sfi tis fields) (r : TIR) (hr : ReaderOK sfi tis fields r) (f : Int) (t : Term) :
    ∃ r' o, tirGetTiField sfi tis r f t = .ok (r', o) ∧ ReaderOK sfi tis fields r' ∧ o.map (fun ti => seen sfi.skipInterval (t, ti)) = (entryOf fields f t).map (seen sfi.skipInterval) := by
  obtain ⟨⟨c, hst⟩, hfile, hfield⟩ := hr
  unfold tirGetTiField
  -- the enumerator in the right field
  have hr : ∃ e, (if f ≠ r.field then (⟨f, some (steSetField sfi (tirEnum sfi tis r) f)⟩ : TIR) else { r with te := some (tirEnum sfi tis r) }) = ⟨f, some e⟩ ∧
      e.field = f ∧ e.file = tis ∧ ∃ c, Stands sfi tis fields e c := by
    by_cases hf : f ≠ r.field
    · rw [if_pos hf]
      obtain ⟨e', o, e1, s1, f1, -⟩ := enumStep_spec hdict _ c hst hfile (.setField f)
      simp only [enumStep, Res.ok.injEq, Prod.mk.injEq] at e1
      refine ⟨_, rfl, ?_, by rw [e1.1]; exact f1, _, by rw [e1.1]; exact s1⟩
      unfold steSetField
      cases sfi.dict f <;> rfl
    · rw [if_neg hf]
      have hf' : f = r.field := Classical.byContradiction hf
      exact ⟨_, by rw [hf'], by rw [hfield, hf'], hfile, c, hst⟩
  obtain ⟨e, er, ef, efile, c', hst'⟩ := hr
  rw [er]
  unfold tirGetTi
  show ∃ r' o, (scanTo sfi e t >>= _) = _ ∧ _
  obtain ⟨e', o, s1, s2, s3, s4⟩ := enumStep_spec hdict e c' hst' efile (.skipTo t)
  have hasc := (hdict e.field).1
  have hent := hst'.1
  rw [← hent] at hasc
  simp only [enumStep, Cursor.step] at s1 s2 s4
  rw [findIdx_below t _ hasc] at s2 s4
  cases hsc : scanTo sfi e t with
  | raise err => rw [hsc] at s1; cases s1
  | ub => rw [hsc] at s1; cases s1
  | ok x =>
    rw [hsc, Res.ok_bind] at s1
    simp only [Res.ok.injEq, Prod.mk.injEq] at s1
    obtain ⟨rfl, rfl⟩ := s1
    simp only [Res.ok_bind]
    have hfx : x.1.field = f := by
      rcases (hdict e.field).2 with ⟨h1, h2⟩ | ⟨sti, h1, h2⟩
      · unfold scanTo at hsc
        rw [h1] at hsc
        cases hsc
        exact ef
      · by_cases hp : 0 < (entriesOf fields e.field).length
        · obtain ⟨e2, o2, e3, f3, -⟩ := scanTo_spec (hdict e.field).1 h2 hp h1 t (by rw [← hent]; exact hst'.2.imp (fun h => ⟨_, h⟩) (·.1))
          rw [hsc] at e3
          cases e3
          exact f3.trans ef
        · unfold scanTo at hsc
          rw [h1] at hsc
          dsimp only at hsc
          rw [if_neg (by rw [h2.size]; omega)] at hsc
          cases hsc
          exact ef
    refine ⟨_, _, rfl, ⟨⟨_, s2⟩, s3, hfx⟩, ?_⟩
    have hentry : entryOf fields f t = c'.entries[below c'.entries t]?.filter (fun e => decide (e.1 = t)) := by
      rw [← find_below t _ hasc, hent, ef]; rfl
    rw [hentry]
    have hspec : (match (if below c'.entries t < c'.entries.length then some (below c'.entries t) else none) with
      | some j => ((⟨c'.entries, j + 1⟩ : Cursor), c'.entries[j]?)
      | none => (⟨c'.entries, c'.entries.length⟩, none)).2 = c'.entries[below c'.entries t]? := by
      by_cases hlt : below c'.entries t < c'.entries.length
      · rw [if_pos hlt]
      · rw [if_neg hlt, List.getElem?_eq_none (by omega)]
    rw [hspec] at s4
    cases hb : c'.entries[below c'.entries t]? with
    | none =>
      rw [hb] at s4
      cases hx2 : x.2 with
      | none => rfl
      | some m => rw [hx2] at s4; cases s4
    | some y =>
      rw [hb] at s4
      cases hx2 : x.2 with
      | none => rw [hx2] at s4; cases s4
      | some m =>
        rw [hx2] at s4
        simp only [Option.map_some, Option.some.injEq] at s4
        have hm : m = y.1 := by
          have := congrArg (·.1) s4
          exact this
        subst hm
        simp only [Option.filter]
        by_cases hyt : y.1 = t
        · rw [if_pos (strcmp_eq.2 hyt), if_pos (by simpa using hyt)]
          simp only [Option.map_some, Option.some.injEq]
          rw [← s4, hyt]
        · rw [if_neg (fun h => hyt (strcmp_eq.1 h)), if_neg (by simpa using hyt)]
          rfl

/-- **C20, lookups.** Any sequence of lookups finds exactly the terms that were written, each with its
document frequency and pointers. -/
theorem c20_lookup (ii si : Nat) (fields : List (Nat × List (Term × TI))) (h : WritableDict ii si fields) :
    ∃ fs, writeDict ii si fields = .ok fs ∧ (fs.tis.length < 2 ^ 64 → fs.tix.length < 2 ^ 64 →
      ∃ sfi, sfiOpen fs = .ok sfi ∧ ∀ qs : List (Int × Term), ∃ rs, lookupRun sfi fs.tis tirOpen qs = .ok rs ∧ rs.length = qs.length ∧
        ∀ (i : Nat) q r, qs[i]? = some q → rs[i]? = some r → r.map (fun ti => seen si (q.2, ti)) = (entryOf fields q.1 q.2).map (seen si)) := by
  obtain ⟨fs, e1, h1⟩ := dict_spec ii si fields h.fit
  refine ⟨fs, e1, fun l1 l2 => ?_⟩
  obtain ⟨sfi, e2, hsi, -, hd⟩ := h1 l1 l2
  refine ⟨sfi, e2, ?_⟩
  have hdict : DictOK sfi fs.tis fields := fun f => ⟨h.asc f, hd f⟩
  have key : ∀ (qs : List (Int × Term)) (r : TIR), ReaderOK sfi fs.tis fields r →
      ∃ rs, lookupRun sfi fs.tis r qs = .ok rs ∧ rs.length = qs.length ∧
        ∀ (i : Nat) q x, qs[i]? = some q → rs[i]? = some x → x.map (fun ti => seen si (q.2, ti)) = (entryOf fields q.1 q.2).map (seen si) := by
    intro qs
    induction qs with
    | nil => intro r _; exact ⟨[], rfl, rfl, fun i q x hq => by simp at hq⟩
    | cons q qs ih =>
      intro r hr
      obtain ⟨r', o, s1, s2, s3⟩ := lookup_spec hdict r hr q.1 q.2
      obtain ⟨rs, e3, l3, g3⟩ := ih r' s2
      refine ⟨o :: rs, ?_, by simp [l3], fun i q' y hq hy => ?_⟩
      · obtain ⟨f, t⟩ := q
        unfold lookupRun
        rw [s1, Res.ok_bind, e3]; rfl
      · cases i with
        | succ i => simp only [List.getElem?_cons_succ] at hq hy; exact g3 i q' y hq hy
        | zero =>
          simp only [List.getElem?_cons_zero, Option.some.injEq] at hq hy
          subst hq
          subst hy
          rw [hsi] at s3
          exact s3
  exact fun qs => key qs tirOpen (readerOK_open hdict)

/-- Two fields, an index interval of 2 and a skip interval of 3. -/
def dict20 : List (Nat × List (Term × TI)) :=
  [(0, [([97], ⟨1, 0, 0, 0⟩), ([97, 98], ⟨4, 7, 3, 9⟩), ([98], ⟨2, 20, 8, 0⟩)]), (3, [([], ⟨1, 30, 30, 0⟩), ([122], ⟨5, 31, 32, 40⟩)])]

example : WritableDict 2 3 dict20 := by
  refine ⟨by decide, by decide, by decide, by decide, by decide, by decide, by decide, ?_⟩
  intro x hx
  simp only [dict20, List.mem_cons, List.not_mem_nil, or_false] at hx
  rcases hx with rfl | rfl <;> exact ⟨by decide, by decide, by decide, by decide⟩

#print axioms c20_enumerator
#print axioms c20_lookup
end Ferret.Props
