import Verif.Lemmas.PostFlush
import Verif.Lemmas.BitVector

/-! C22: enumerating the documents and positions of a term; `skip_to` equals a linear scan. -/

namespace Ferret.Props
open Ferret Ferret.Expand Ferret.Dict Ferret.Post

/-! ### What is written -/

/-- The documents of a term: ascending numbers, at least one occurrence each, and positions that fit
an `int`. -/
structure Postings (ps : List Posting) : Prop where
  asc : ps.Pairwise fun a b => a.doc < b.doc
  docLt : ∀ p ∈ ps, p.doc < 2 ^ 30
  freq : ∀ p ∈ ps, p.freq = p.occ.length ∧ 0 < p.freq
  occ : ∀ p ∈ ps, ∀ x ∈ p.occ, -1 ≤ x ∧ x < 2 ^ 31
  docs : ps.length < 2 ^ 27
  occurrences : (ps.map fun p => p.occ.length).sum < 2 ^ 28

/-- A segment in memory: its fields by number, each with its terms in order and their documents. -/
structure Segment (ii si : Nat) (fields : List (Nat × List (Term × List Posting))) : Prop where
  iiPos : 0 < ii
  iiLt : ii < 2 ^ 31
  siLt : si < 2 ^ 31
  count : fields.length < 2 ^ 31
  nums : (fields.map (·.1)).Nodup
  numLt : ∀ x ∈ fields, x.1 < 2 ^ 31
  sizes : ∀ x ∈ fields, x.2.length < 2 ^ 31
  asc : ∀ x ∈ fields, x.2.Pairwise fun a b => a.1 < b.1
  termLen : ∀ x ∈ fields, ∀ y ∈ x.2, y.1.length < 255
  postings : ∀ x ∈ fields, ∀ y ∈ x.2, Postings y.2
  total : (fields.map fun x => (x.2.map fun y => y.2.length).sum).sum < 2 ^ 56
  totalOccs : (fields.map fun x => (x.2.map fun y => (y.2.map fun p => p.occ.length).sum).sum).sum < 2 ^ 56

/-- The documents of a term, in order, if there is such a field and term. -/
def postingsOf (fields : List (Nat × List (Term × List Posting))) (f : Int) (t : Term) : Option (List Posting) :=
  ((fields.find? fun x => decide ((x.1 : Int) = f)).bind fun x => x.2.find? fun y => decide (y.1 = t)).map (·.2)

/-! ### What an enumerator should do -/

inductive PostOp where
  | seek (f : Int) (t : Term)
  | seekTe (f : Int) (t : Term)
  | next
  | skipTo (n : Int)
  | read (n : Nat)
  | position

/-- What is seen: nothing, a document and its frequency, several of them, or a position. -/
inductive PostOut where
  | done
  | doc (d : Option (Int × Int))
  | docs (l : List (Int × Int))
  | pos (p : Int)
  deriving DecidableEq

/-- The documents not yet seen, and the positions not yet seen of the current one. -/
structure PCur where
  rest : List Posting
  left : List Int

/-- The first of a list is the next document. -/
def PCur.take : List Posting → PCur × PostOut
  | [] => (⟨[], []⟩, .doc none)
  | p :: rest => (⟨rest, p.occ⟩, .doc (some (p.doc, p.freq)))

/-- * Seeking a term goes before its first document that is not deleted; there are no documents if there
is no such term.
* Seeking with a term enumerator, once it stands on the term, does the same.
* `next` gives the following document that is not deleted.
* `skipTo n` is a linear scan: it drops the documents not yet seen that are before `n`.
* `read n` gives the following `n` documents, or as many as there are.
* `position` gives the following position in the current document, or −1. -/
def PCur.step (fields : List (Nat × List (Term × List Posting))) (dead : Nat → Bool) (c : PCur) : PostOp → PCur × PostOut
  | .seek f t => (⟨((postingsOf fields f t).getD []).filter fun p => !dead p.doc, []⟩, .done)
  | .seekTe f t => match postingsOf fields f t with
    | some ps => (⟨ps.filter fun p => !dead p.doc, []⟩, .done)
    | none => (c, .done)
  | .next => PCur.take c.rest
  | .skipTo n => PCur.take (c.rest.dropWhile fun p => decide ((p.doc : Int) < n))
  | .read n => (⟨c.rest.drop n, c.left⟩, .docs ((c.rest.take n).map fun p => ((p.doc : Int), (p.freq : Int))))
  | .position => (⟨c.rest, c.left.tail⟩, .pos (c.left.head?.getD (-1)))

def PCur.run (fields : List (Nat × List (Term × List Posting))) (dead : Nat → Bool) : PCur → List PostOp → List PostOut
  | _, [] => []
  | c, op :: ops => (c.step fields dead op).2 :: PCur.run fields dead (c.step fields dead op).1 ops

/-! ### What the enumerator does -/

/-- An enumerator and the dictionary reader of its thread. -/
structure PSess where
  tir : TIR
  s : STDE

/-- After `next` or `skip_to`: the document and the frequency, if there is one. -/
def docOut (r : STDE × Bool) : Res (Option (Int × Int)) := if r.2 then docFreqOf r.1 >>= fun d => .ok (some d) else .ok none

/-- te->curr_ti if the enumerator stands on the term. -/
def onTerm (t : Term) (r : STE × Option Term) : Option TI :=
  match r.2 with
  | some m => if m = t then some r.1.ti else none
  | none => none

def postStep (sfi : SFI) (tis : List Byte) (x : PSess) : PostOp → Res (PSess × PostOut)
  | .seek f t => tirGetTiField sfi tis x.tir f t >>= fun r => seekFound x.s r.2 >>= fun s => .ok (⟨r.1, s⟩, .done)
  | .seekTe f t => scanTo sfi (steSetField sfi (steNew tis) f) t >>= fun r =>
    match onTerm t r with
    | some ti => seekTe x.s ti >>= fun s => .ok (⟨x.tir, s⟩, .done)
    | none => .ok (x, .done)
  | .next => Post.next x.s >>= fun r => docOut r >>= fun d => .ok (⟨x.tir, r.1⟩, .doc d)
  | .skipTo n => Post.skipTo x.s n >>= fun r => docOut r >>= fun d => .ok (⟨x.tir, r.1⟩, .doc d)
  | .read n => Post.read x.s n >>= fun r => .ok (⟨x.tir, r.1⟩, .docs r.2)
  | .position => nextPosition x.s >>= fun r => .ok (⟨x.tir, r.1⟩, .pos r.2)

def postRun (sfi : SFI) (tis : List Byte) : PSess → List PostOp → Res (List PostOut)
  | _, [] => .ok []
  | x, op :: ops => postStep sfi tis x op >>= fun r => postRun sfi tis r.1 ops >>= fun os => .ok (r.2 :: os)

/-- Only enumerators of positions have positions, and only the others read many documents and are
given term enumerators (see below). `skip_to` needs a skip interval of at least 3 (see below). -/
def usable (si : Nat) (isPos : Bool) : PostOp → Bool
  | .read _ => !isPos
  | .seekTe _ _ => !isPos
  | .skipTo _ => decide (3 ≤ si)
  | .position => isPos
  | _ => true

/-! ### Proof -/

theorem le_sum_of_mem {α : Type} {f : α → Nat} {x : α} : ∀ {l : List α}, x ∈ l → f x ≤ (l.map f).sum := by
  intro l
  induction l with
  | nil => intro h; cases h
  | cons y l ih =>
    intro h
    rw [List.map_cons, List.sum_cons]
    rcases List.mem_cons.1 h with rfl | h
    · omega
    · have := ih h; omega

theorem Postings.ok {ps : List Posting} (h : Postings ps) : PsOK ps := by
  have h1 := h.docs
  have h2 := h.occurrences
  have s1 := encFrq_length_le ps 0
  have s3 := encPrx_length_le ps
  refine ⟨h.asc, h.docLt, fun p hp => ⟨(h.freq p hp).1, (h.freq p hp).2, ?_⟩, h.occ, by omega, by omega, ?_⟩
  · have : p.occ.length ≤ (ps.map fun p => p.occ.length).sum := le_sum_of_mem (f := fun p : Posting => p.occ.length) hp
    have := (h.freq p hp).1
    omega
  · unfold occs at s3; omega

theorem flushed_dict {ii si : Nat} {fields : List (Nat × List (Term × List Posting))} (h : Segment ii si fields) (hsi : 0 < si) :
    WritableDict ii si (flushFields si [] [] fields).2.2 := by
  have hf := flushFields_spec hsi fields [] [] fun x hx y hy => (h.postings x hx y hy).ok
  generalize hr : flushFields si [] [] fields = r at hf
  have hat : ∀ (i : Nat) y, r.2.2[i]? = some y → ∃ ts, fields[i]? = some (y.1, ts) ∧ y.2.map (·.1) = ts.map (·.1) ∧
      (y.2.Pairwise fun a b => a.2.frqPtr ≤ b.2.frqPtr) ∧ (y.2.Pairwise fun a b => a.2.prxPtr ≤ b.2.prxPtr) ∧
      ∀ (j : Nat) x, ts[j]? = some x → ∃ ti, y.2[j]? = some (x.1, ti) ∧ Loc r.1 r.2.1 si ti x.2 := by
    intro i y hy
    have hlt : i < fields.length := by rw [← hf.len]; exact (List.getElem?_eq_some_iff.1 hy).1
    obtain ⟨es, g1, g2, g3, g4, g5⟩ := hf.field i fields[i].1 fields[i].2 (List.getElem?_eq_getElem hlt)
    rw [hy] at g1
    cases g1
    exact ⟨fields[i].2, List.getElem?_eq_getElem hlt, g2, g3, g4, g5⟩
  obtain ⟨a, ha, la⟩ := hf.frqE
  obtain ⟨b, hb, lb⟩ := hf.prxE
  have t1 := h.total
  have t2 := h.totalOccs
  rw [List.nil_append] at ha hb
  have hmapf : r.2.2.map (·.1) = fields.map (·.1) := by
    apply List.ext_getElem? 
    intro i
    rw [List.getElem?_map, List.getElem?_map]
    cases hy : r.2.2[i]? with
    | none =>
      have : fields[i]? = none := by
        rw [List.getElem?_eq_none_iff, ← hf.len]
        exact List.getElem?_eq_none_iff.1 hy
      rw [this]; rfl
    | some y =>
      obtain ⟨ts, g1, -⟩ := hat i y hy
      rw [g1]; rfl
  refine ⟨h.iiPos, h.iiLt, h.siLt, by rw [hf.len]; exact h.count, by rw [hmapf]; exact h.nums, ?_, ?_, ?_⟩
  · intro y hy
    obtain ⟨i, hi⟩ := List.getElem?_of_mem hy
    obtain ⟨ts, g1, -⟩ := hat i y hi
    exact h.numLt _ (List.mem_of_getElem? g1)
  · intro y hy
    obtain ⟨i, hi⟩ := List.getElem?_of_mem hy
    obtain ⟨ts, g1, g2, -⟩ := hat i y hi
    have := congrArg List.length g2
    simp only [List.length_map] at this
    rw [this]
    exact h.sizes _ (List.mem_of_getElem? g1)
  · intro y hy
    obtain ⟨i, hi⟩ := List.getElem?_of_mem hy
    obtain ⟨ts, g1, g2, g3, g4, g5⟩ := hat i y hi
    have hmem := List.mem_of_getElem? g1
    refine ⟨?_, g3, g4, ?_⟩
    · have := h.asc _ hmem
      have h1 : (ts.map (·.1)).Pairwise (· < ·) := List.pairwise_map.2 this
      rw [← g2] at h1
      exact List.pairwise_map.1 h1
    · intro e he
      obtain ⟨j, hj⟩ := List.getElem?_of_mem he
      have hjl : j < ts.length := by
        have := congrArg List.length g2
        simp only [List.length_map] at this
        rw [← this]
        exact (List.getElem?_eq_some_iff.1 hj).1
      obtain ⟨ti, k1, k2⟩ := g5 j _ (List.getElem?_eq_getElem hjl)
      rw [hj] at k1
      cases k1
      have hm := List.getElem_mem hjl
      have hp := h.postings _ hmem _ hm
      have q1 := k2.frqLe
      have q2 := k2.prxLe
      have q3 := k2.docFreq
      have q4 := k2.skip
      have q5 := hp.docs
      have q6 := encFrq_length_le ts[j].2 0
      rw [ha] at q1
      rw [hb] at q2
      have q7 : docsAll fields < 2 ^ 56 := t1
      have q8 : occsAll fields < 2 ^ 56 := t2
      refine ⟨h.termLen _ hmem _ hm, ?_, ?_, ?_, ?_⟩ <;> dsimp only <;> omega

theorem find_agree {α β : Type} {γ : Type} [DecidableEq γ] (g : γ) : ∀ (xs : List (γ × α)) (ys : List (γ × β)), ys.map (·.1) = xs.map (·.1) →
    (xs.find? (fun x => decide (x.1 = g)) = none ∧ ys.find? (fun x => decide (x.1 = g)) = none) ∨
    ∃ (i : Nat) (a : α) (b : β), xs[i]? = some (g, a) ∧ ys[i]? = some (g, b) ∧ xs.find? (fun x => decide (x.1 = g)) = some (g, a) ∧ ys.find? (fun x => decide (x.1 = g)) = some (g, b) := by
  intro xs
  induction xs with
  | nil => intro ys h; cases ys with
    | nil => exact Or.inl ⟨rfl, rfl⟩
    | cons y ys => simp at h
  | cons x xs ih =>
    intro ys h
    cases ys with
    | nil => simp at h
    | cons y ys =>
      simp only [List.map_cons, List.cons.injEq] at h
      by_cases hx : x.1 = g
      · refine Or.inr ⟨0, x.2, y.2, ?_, ?_, ?_, ?_⟩
        · simp [← hx]
        · simp [← hx, ← h.1]
        · rw [List.find?_cons_of_pos (by simpa using hx)]; simp [← hx]
        · rw [List.find?_cons_of_pos (by simpa using h.1.trans hx)]; simp [← hx, ← h.1]
      · rw [List.find?_cons_of_neg (by simpa using hx), List.find?_cons_of_neg (by simpa using fun e => hx (h.1.symm.trans e))]
        rcases ih ys h.2 with h' | ⟨i, a, b, h1, h2, h3, h4⟩
        · exact Or.inl h'
        · exact Or.inr ⟨i + 1, a, b, by simpa using h1, by simpa using h2, h3, h4⟩

theorem find_nat {α : Type} (f : Nat) (xs : List (Nat × α)) : xs.find? (fun x => decide ((x.1 : Int) = (f : Int))) = xs.find? fun x => decide (x.1 = f) := by
  congr 1
  funext x
  rw [decide_eq_decide]
  omega

/-- The entry of a term is where its postings are. -/
theorem entry_loc {ii si : Nat} {fields : List (Nat × List (Term × List Posting))} (h : Segment ii si fields) (hsi : 0 < si) (f : Int) (t : Term) :
    let r := flushFields si [] [] fields
    (entryOf r.2.2 f t = none ∧ postingsOf fields f t = none) ∨
    ∃ ti ps, entryOf r.2.2 f t = some (t, ti) ∧ postingsOf fields f t = some ps ∧ Loc r.1 r.2.1 si ti ps ∧ PsOK ps := by
  have hf := flushFields_spec hsi fields [] [] fun x hx y hy => (h.postings x hx y hy).ok
  generalize flushFields si [] [] fields = r at hf
  dsimp only
  have hnone : ∀ (α : Type) (xs : List (Nat × α)), f < 0 → xs.find? (fun x => decide ((x.1 : Int) = f)) = none := by
    intro α xs hneg
    rw [List.find?_eq_none]
    intro x _
    simp only [decide_eq_true_eq]
    omega
  by_cases hneg : f < 0
  · refine Or.inl ⟨?_, ?_⟩
    · unfold entryOf; rw [hnone _ _ hneg]; rfl
    · unfold postingsOf; rw [hnone _ _ hneg]; rfl
  · obtain ⟨n, rfl⟩ : ∃ n : Nat, f = n := ⟨f.toNat, by omega⟩
    unfold entryOf postingsOf
    rw [find_nat, find_nat]
    have hmap : r.2.2.map (·.1) = fields.map (·.1) := by
      apply List.ext_getElem?
      intro i
      rw [List.getElem?_map, List.getElem?_map]
      cases hy : fields[i]? with
      | none =>
        have : r.2.2[i]? = none := by
          rw [List.getElem?_eq_none_iff, hf.len]
          exact List.getElem?_eq_none_iff.1 hy
        rw [this]; rfl
      | some y =>
        obtain ⟨es, g1, -⟩ := hf.field i y.1 y.2 hy
        rw [g1]; rfl
    rcases find_agree n fields r.2.2 hmap with ⟨h1, h2⟩ | ⟨i, ts, es, h1, h2, h3, h4⟩
    · rw [h1, h2]; exact Or.inl ⟨rfl, rfl⟩
    · rw [h3, h4]
      obtain ⟨es', g1, g2, -, -, g5⟩ := hf.field i n ts h1
      rw [h2] at g1
      cases g1
      simp only [Option.map_some, Option.getD_some, Option.bind_some]
      rcases find_agree t ts es g2 with ⟨k1, k2⟩ | ⟨j, ps, ti, k1, k2, k3, k4⟩
      · rw [k1, k2]; exact Or.inl ⟨rfl, rfl⟩
      · rw [k3, k4]
        obtain ⟨ti', l1, l2⟩ := g5 j _ k1
        rw [k2] at l1
        cases l1
        exact Or.inr ⟨ti, ps, rfl, rfl, l2, (h.postings _ (List.mem_of_getElem? h1) _ (List.mem_of_getElem? k1)).ok⟩

/-- The state of an enumerator. -/
structure PRel (sfi : SFI) (tis : List Byte) (dict : List (Nat × List (Term × TI))) (frq prx : List Byte) (si : Nat) (dead : Nat → Bool) (isPos : Bool) (x : PSess) (cur : PCur) : Prop where
  reader : ReaderOK sfi tis dict x.tir
  kind : x.s.isPos = isPos
  del : Deletes x.s.del dead
  st : (∃ fp pp ps c, Post.At frq prx si fp pp ps ∧ Core frq prx si fp pp ps x.s c ∧ SkOK x.s c ∧ (isPos = true → Prx prx pp ps x.s c cur.left) ∧ cur.rest = live dead (ps.drop c)) ∨
    (x.s.frq = frq ∧ x.s.prx = prx ∧ x.s.si = si ∧ x.s.docFreq = 0 ∧ 0 ≤ x.s.count ∧ (isPos = true → x.s.prxCnt ≤ 0 ∧ cur.left = []) ∧ cur.rest = [])

theorem dead_next {s : STDE} (h1 : s.docFreq = 0) (h2 : 0 ≤ s.count) (h3 : s.isPos = true → s.prxCnt ≤ 0) :
    ∃ s', Post.next s = .ok (s', false) ∧ s'.frq = s.frq ∧ s'.prx = s.prx ∧ s'.si = s.si ∧ s'.docFreq = 0 ∧ s'.count = s.count ∧ s'.isPos = s.isPos ∧ s'.del = s.del ∧ (s.isPos = true → s'.prxCnt ≤ 0) := by
  have hl : ∀ (fuel : Nat) (s : STDE), s.docFreq = 0 → 0 ≤ s.count → nextLoop (fuel + 1) s = .ok (s, false) := by
    intro fuel s h1 h2
    unfold nextLoop
    rw [if_pos (by rw [h1]; exact h2)]
  unfold Post.next
  by_cases hp : s.isPos = true
  · rw [if_pos hp]
    unfold stpeNext
    have hz : s.prxCnt.toNat = 0 := by have := h3 hp; omega
    rw [hz]
    unfold rdAt skipVints
    simp only [Res.ok_bind]
    have hn : ∀ q, stdeNext { s with prxAt := q } = .ok ({ s with prxAt := q }, false) := fun q => hl _ _ h1 h2
    rw [hn, Res.ok_bind]
    dsimp only
    rw [if_neg (by decide)]
    exact ⟨_, rfl, rfl, rfl, rfl, h1, rfl, rfl, rfl, fun _ => Int.le_refl _⟩
  · rw [if_neg hp]
    unfold stdeNext
    rw [hl _ _ h1 h2]
    exact ⟨_, rfl, rfl, rfl, rfl, h1, rfl, rfl, rfl, h3⟩

theorem docOut_ok {frq prx : List Byte} {si fp pp : Nat} {ps : List Posting} {s : STDE} {c : Nat} {p : Posting} (hs : Core frq prx si fp pp ps s (c + 1)) (hp : ps[c]? = some p) (hf : s.freq = p.freq) :
    docOut (s, true) = .ok (some ((p.doc : Int), (p.freq : Int))) := by
  unfold docOut docFreqOf
  rw [if_pos rfl, if_neg (by rw [hs.count]; show ¬ ((c + 1 : Nat) : Int) = 0; omega), Res.ok_bind, hs.docNum, D_succ hp, hf]

theorem postStep_spec {ii si : Nat} {fields : List (Nat × List (Term × List Posting))} (h : Segment ii si fields) (hsi : 0 < si) {sfi : SFI} {tis : List Byte} (hsfi : sfi.skipInterval = si)
    (hd : DictOK sfi tis (flushFields si [] [] fields).2.2) {dead : Nat → Bool} {isPos : Bool} {x : PSess} {cur : PCur}
    (hx : PRel sfi tis (flushFields si [] [] fields).2.2 (flushFields si [] [] fields).1 (flushFields si [] [] fields).2.1 si dead isPos x cur) (op : PostOp) (hop : usable si isPos op = true) :
    ∃ x', postStep sfi tis x op = .ok (x', (cur.step fields dead op).2) ∧
      PRel sfi tis (flushFields si [] [] fields).2.2 (flushFields si [] [] fields).1 (flushFields si [] [] fields).2.1 si dead isPos x' (cur.step fields dead op).1 := by
  have hloc := entry_loc h hsi
  have hfl := flushFields_spec hsi fields [] [] fun x hx y hy => (h.postings x hx y hy).ok
  generalize flushFields si [] [] fields = r at *
  dsimp only at hloc
  -- once `next` or `skip_to` has found a document or ended
  have fin : ∀ {fp pp ps} {s s' : STDE} {c : Nat} {b : Bool} {target : Int} {cl : List Posting}, Post.At r.1 r.2.1 si fp pp ps → s.isPos = isPos → Deletes s.del dead →
      Skipped r.1 r.2.1 si fp pp ps dead target s c s' b → from' dead ps c target = cl →
      ∃ d, docOut (s', b) = .ok d ∧ (PCur.take cl).2 = .doc d ∧ PRel sfi tis r.2.2 r.1 r.2.1 si dead isPos ⟨x.tir, s'⟩ (PCur.take cl).1 := by
    intro fp pp ps s s' c b target cl hat hk hdel hsk hcl
    obtain ⟨⟨a1, a2⟩, hfo⟩ := hsk
    rcases hfo with ⟨rfl, c', p, c2, c3, c4, c5, c6, c7⟩ | ⟨rfl, c1, c2, c3, c4⟩
    · rw [← hcl, c3]
      exact ⟨_, docOut_ok c4 c2 c6, rfl, hx.reader, a1.trans hk, a2 ▸ hdel, Or.inl ⟨fp, pp, ps, c' + 1, hat, c4, c5, fun hi => (c7 (hk.trans hi)).1, rfl⟩⟩
    · rw [← hcl, c1]
      refine ⟨none, rfl, rfl, hx.reader, a1.trans hk, a2 ▸ hdel, Or.inl ⟨fp, pp, ps, ps.length, hat, c2, c3, fun hi => c4 (hk.trans hi), ?_⟩⟩
      rw [List.drop_length]; rfl
  have hst0 : x.s.frq = r.1 ∧ x.s.prx = r.2.1 ∧ x.s.si = si ∧ 0 ≤ x.s.count := by
    rcases hx.st with ⟨fp, pp, ps, c, -, hc, -⟩ | ⟨k1, k2, k3, -, k5, -⟩
    · exact ⟨hc.frqF, hc.prxF, hc.siF, by rw [hc.count]; omega⟩
    · exact ⟨k1, k2, k3, k5⟩
  obtain ⟨g1, g2, g3, g4⟩ := hst0
  have hkind := hx.kind
  have hdel := hx.del
  -- once a term has been found
  have found : ∀ {r' : TIR} {t : Term} {ti ti' : TI} {ps : List Posting}, ReaderOK sfi tis r.2.2 r' → Loc r.1 r.2.1 si ti ps → PsOK ps →
      seen sfi.skipInterval (t, ti') = seen sfi.skipInterval (t, ti) →
      ∃ s', seekFound x.s (some ti') = .ok s' ∧ PRel sfi tis r.2.2 r.1 r.2.1 si dead isPos ⟨r', s'⟩ ⟨ps.filter fun p => !dead p.doc, []⟩ := by
    intro r' t ti ti' ps e2 l2 l3 e3
    unfold seen at e3
    simp only [Prod.mk.injEq, true_and] at e3
    obtain ⟨q1, q2, q3, q4⟩ := e3
    rw [hsfi] at q4
    have hat : Post.At r.1 r.2.1 si ti.frqPtr ti.prxPtr ps := ⟨l3, hsi, l2.frqAt, l2.frqLe, l2.prxAt, l2.prxLe⟩
    have hdf := l2.docFreq
    have hcore : ∀ s', s'.frq = r.1 → s'.prx = r.2.1 → s'.si = si → s'.count = 0 → s'.docFreq = (ti'.docFreq : Int) → s'.docNum = 0 → s'.skipDoc = 0 → s'.skipCount = 0 →
        s'.numSkips = Int.tdiv ti'.docFreq si → s'.frqPtr = ti'.frqPtr → s'.prxPtr = ti'.prxPtr → s'.skipPtr = ti'.frqPtr + ti'.skip → s'.frqAt = ti'.frqPtr → s'.haveSkipped = false →
        Core r.1 r.2.1 si ti.frqPtr ti.prxPtr ps s' 0 ∧ SkOK s' 0 := by
      intro s' k1 k2 k3 k4 k5 k6 k7 k8 k9 k10 k11 k12 k13 k14
      refine ⟨⟨k1, k2, k3, Nat.zero_le _, k4, by rw [k5, q1, hdf], by rw [k6, D_zero]; rfl, by rw [k13, q2, F_zero]; rfl, ?_, 0, k8, Nat.zero_le _, ?_, ?_, ?_, fun _ => ⟨rfl, fun hle => ?_⟩, ?_⟩, ?_⟩
      · rw [k9, q1, hdf, Int.tdiv_eq_ediv_of_nonneg (by omega)]; rfl
      · rw [k7, Nat.zero_mul, Nat.zero_sub, D_zero]; rfl
      · rw [k10, q2, Nat.zero_mul, Nat.zero_sub, F_zero]; rfl
      · rw [k11, q3, Nat.zero_mul, Nat.zero_sub, P_zero]; rfl
      · rw [q1, if_pos (by omega), if_pos (by omega)] at q4
        simp only [Option.some.injEq] at q4
        rw [k12, q2, q4, l2.skip]
      · rw [k14]; exact fun hh => nomatch hh
      · unfold SkOK
        rw [k8, k3]
        omega
    unfold seekFound
    by_cases hpos : x.s.isPos = true
    · rw [if_pos hpos]
      simp only [stpeSeekTi, seekTi]
      rw [if_neg (show ¬ x.s.si = 0 by omega)]
      simp only [Res.ok_bind]
      refine ⟨_, rfl, e2, hkind, hdel, Or.inl ⟨ti.frqPtr, ti.prxPtr, ps, 0, hat, ?_, ?_, fun _ => ⟨rfl, ?_, ?_, fun y hy => nomatch hy⟩, rfl⟩⟩
      · apply And.left; apply hcore <;> first | assumption | rfl | (dsimp only; rw [g3])
      · apply And.right; apply hcore <;> first | assumption | rfl | (dsimp only; rw [g3])
      · show ti'.prxPtr + 0 = ti.prxPtr + 0
        rw [q3]
      · show List.drop ti'.prxPtr r.2.1 = [] ++ List.drop (ti.prxPtr + 0) r.2.1
        rw [q3]; rfl
    · rw [if_neg hpos]
      simp only [seekTi]
      rw [if_neg (show ¬ x.s.si = 0 by omega)]
      refine ⟨_, rfl, e2, hkind, hdel, Or.inl ⟨ti.frqPtr, ti.prxPtr, ps, 0, hat, ?_, ?_, fun hi => absurd (hkind.trans hi) hpos, rfl⟩⟩
      · apply And.left; apply hcore <;> first | assumption | rfl | (dsimp only; rw [g3])
      · apply And.right; apply hcore <;> first | assumption | rfl | (dsimp only; rw [g3])
  cases op with
  | seek f t =>
    simp only [postStep]
    obtain ⟨r', o, e1, e2, e3⟩ := lookup_spec hd x.tir hx.reader f t
    rw [e1, Res.ok_bind]
    dsimp only
    simp only [PCur.step]
    rcases hloc f t with ⟨l1, l2⟩ | ⟨ti, ps, l1, l0, l2, l3⟩
    · rw [l1] at e3
      rw [l2]
      cases o with
      | some _ => cases e3
      | none =>
        have hp : ∀ s', s' = ({ x.s with docFreq := 0 } : STDE) ∨ s' = ({ x.s with docFreq := 0, prxCnt := 0 } : STDE) → (isPos = true → s'.prxCnt ≤ 0) →
            PRel sfi tis r.2.2 r.1 r.2.1 si dead isPos ⟨r', s'⟩ ⟨[], []⟩ := by
          intro s' hs' hcnt
          rcases hs' with rfl | rfl <;> exact ⟨e2, hkind, hdel, Or.inr ⟨g1, g2, g3, rfl, g4, fun hi => ⟨hcnt hi, rfl⟩, rfl⟩⟩
        unfold seekFound
        by_cases hpos : x.s.isPos = true
        · rw [if_pos hpos]
          unfold stpeSeekTi
          rw [Res.ok_bind, Res.ok_bind]
          exact ⟨_, rfl, hp _ (Or.inr rfl) fun _ => Int.le_refl _⟩
        · rw [if_neg hpos]
          unfold seekTi
          rw [Res.ok_bind]
          exact ⟨_, rfl, hp _ (Or.inl rfl) fun hi => absurd (hkind.trans hi) hpos⟩
    · rw [l1] at e3
      rw [l0]
      cases o with
      | none => cases e3
      | some ti' =>
        simp only [Option.map_some, Option.some.injEq] at e3
        obtain ⟨s', f1, f2⟩ := found e2 l2 l3 e3
        rw [f1, Res.ok_bind]
        exact ⟨_, rfl, f2⟩
  | seekTe f t =>
    have hnp : isPos = false := by simpa [usable] using hop
    obtain ⟨e', o', u1, u2, u3, -⟩ := enumStep_spec hd _ _ (stands_new sfi tis r.2.2) rfl (.setField f)
    simp only [enumStep, Res.ok.injEq, Prod.mk.injEq] at u1
    have hrd : ReaderOK sfi tis r.2.2 ⟨f, some (steSetField sfi (steNew tis) f)⟩ := by
      refine ⟨⟨_, by show Stands _ _ _ (steSetField sfi (steNew tis) f) _; rw [u1.1]; exact u2⟩, by show (steSetField sfi (steNew tis) f).file = _; rw [u1.1]; exact u3, ?_⟩
      show (steSetField sfi (steNew tis) f).field = f
      unfold steSetField
      cases sfi.dict f <;> rfl
    obtain ⟨r', o, e1, -, e3⟩ := lookup_spec hd _ hrd f t
    unfold tirGetTiField tirGetTi at e1
    rw [if_neg (by simp)] at e1
    have et : tirEnum sfi tis { (⟨f, some (steSetField sfi (steNew tis) f)⟩ : TIR) with te := some (tirEnum sfi tis ⟨f, some (steSetField sfi (steNew tis) f)⟩) } = steSetField sfi (steNew tis) f := rfl
    rw [et] at e1
    simp only [postStep, PCur.step]
    cases hsc : scanTo sfi (steSetField sfi (steNew tis) f) t with
    | raise err => rw [hsc] at e1; cases e1
    | ub => rw [hsc] at e1; cases e1
    | ok y =>
      rw [hsc, Res.ok_bind] at e1
      simp only [Res.ok.injEq, Prod.mk.injEq] at e1
      obtain ⟨-, e1⟩ := e1
      have e1' : onTerm t y = o := by
        rw [← e1]
        unfold onTerm
        cases y.2 with
        | none => rfl
        | some m =>
          dsimp only
          by_cases hm : m = t
          · rw [if_pos hm, if_pos (strcmp_eq.2 hm)]
          · rw [if_neg hm, if_neg fun hc => hm (strcmp_eq.1 hc)]
      rw [Res.ok_bind, e1']
      rcases hloc f t with ⟨l1, l2⟩ | ⟨ti, ps, l1, l0, l2, l3⟩
      · rw [l1] at e3
        rw [l2]
        cases o with
        | some _ => cases e3
        | none => exact ⟨x, rfl, hx⟩
      · rw [l1] at e3
        rw [l0]
        cases o with
        | none => cases e3
        | some ti' =>
          simp only [Option.map_some, Option.some.injEq] at e3
          obtain ⟨s', f1, f2⟩ := found hx.reader l2 l3 e3
          unfold seekFound at f1
          rw [if_neg (by rw [hkind, hnp]; decide)] at f1
          unfold seekTe
          dsimp only
          rw [f1, Res.ok_bind]
          exact ⟨_, rfl, f2⟩
  | next =>
    simp only [postStep]
    rcases hx.st with ⟨fp, pp, ps, c, hat, hc, hsk, hprx, hrest⟩ | ⟨k1, k2, k3, k4, k5, k6, k7⟩
    · obtain ⟨s', b, e1, ⟨a1, a2, a3⟩, hfo⟩ := next_spec hat hc hx.del fun hi => hprx (hx.kind.symm.trans hi)
      rw [e1, Res.ok_bind]
      have hsk' : ∀ c', c ≤ c' → Core r.1 r.2.1 si fp pp ps s' c' → SkOK s' c' := by
        intro c' hle hc'
        unfold SkOK at hsk ⊢
        rw [a3, hc'.siF]
        rw [hc.siF] at hsk
        exact Int.le_trans hsk (by omega)
      show ∃ x', _ = Res.ok (x', (PCur.take cur.rest).2) ∧ PRel _ _ _ _ _ _ _ _ x' (PCur.take cur.rest).1
      rcases hfo with ⟨rfl, c', p, c1, c2, c3, c4, c5, c6, c7⟩ | ⟨rfl, c1, c2, c3⟩
      · rw [docOut_ok c5 c2 c6, Res.ok_bind, hrest, c4]
        exact ⟨_, rfl, hx.reader, a1.trans hx.kind, a2 ▸ hx.del, Or.inl ⟨fp, pp, ps, c' + 1, hat, c5, hsk' _ (by omega) c5, fun hi => (c7 (hx.kind.trans hi)).1, rfl⟩⟩
      · rw [hrest, c1]
        refine ⟨_, rfl, hx.reader, a1.trans hx.kind, a2 ▸ hx.del, Or.inl ⟨fp, pp, ps, ps.length, hat, c2, skOK_end c2, fun hi => c3 (hx.kind.trans hi), ?_⟩⟩
        rw [List.drop_length]; rfl
    · obtain ⟨s', e1, a1, a2, a3, a4, a5, a6, a7, a8⟩ := dead_next k4 k5 fun hi => (k6 (hx.kind.symm.trans hi)).1
      rw [e1, Res.ok_bind]
      show ∃ x', _ = Res.ok (x', (PCur.take cur.rest).2) ∧ PRel _ _ _ _ _ _ _ _ x' (PCur.take cur.rest).1
      rw [k7]
      exact ⟨_, rfl, hx.reader, a6.trans hx.kind, a7 ▸ hx.del, Or.inr ⟨a1.trans k1, a2.trans k2, a3.trans k3, a4, a5 ▸ k5, fun hi => ⟨a8 (hx.kind.trans hi), rfl⟩, rfl⟩⟩
  | skipTo n =>
    simp only [postStep]
    rcases hx.st with ⟨fp, pp, ps, c, hat, hc, hsk, hprx, hrest⟩ | ⟨k1, k2, k3, k4, k5, k6, k7⟩
    · obtain ⟨s', b, e1, hsk'⟩ := skipTo_spec hat (by simpa [usable] using hop) n hc hsk hx.del fun hi => hprx (hx.kind.symm.trans hi)
      obtain ⟨d, d1, d2, d3⟩ := fin hat hx.kind hx.del hsk' rfl
      rw [e1, Res.ok_bind, d1, Res.ok_bind]
      show ∃ x', _ = Res.ok (x', (PCur.take (cur.rest.dropWhile _)).2) ∧ PRel _ _ _ _ _ _ _ _ x' (PCur.take (cur.rest.dropWhile _)).1
      rw [hrest]
      exact ⟨_, by rw [show (live dead (ps.drop c)).dropWhile _ = from' dead ps c n from rfl, d2], d3⟩
    · obtain ⟨s', e1, a1, a2, a3, a4, a5, a6, a7, a8⟩ := dead_next k4 k5 fun hi => (k6 (hx.kind.symm.trans hi)).1
      have hsk : Post.skipTo x.s n = .ok (s', false) := by
        unfold Post.skipTo skipAhead
        rw [if_neg (by rw [k4, k3]; omega), Res.ok_bind]
        unfold scanLoop
        rw [e1, Res.ok_bind]
        dsimp only
        rw [if_neg (by decide)]
      rw [hsk, Res.ok_bind]
      show ∃ x', _ = Res.ok (x', (PCur.take (cur.rest.dropWhile _)).2) ∧ PRel _ _ _ _ _ _ _ _ x' (PCur.take (cur.rest.dropWhile _)).1
      rw [k7]
      exact ⟨_, rfl, hx.reader, a6.trans hx.kind, a7 ▸ hx.del, Or.inr ⟨a1.trans k1, a2.trans k2, a3.trans k3, a4, a5 ▸ k5, fun hi => ⟨a8 (hx.kind.trans hi), rfl⟩, rfl⟩⟩
  | read n =>
    have hnp : isPos = false := by simpa [usable] using hop
    simp only [postStep]
    unfold Post.read
    rw [if_neg (by rw [hx.kind, hnp]; decide)]
    rcases hx.st with ⟨fp, pp, ps, c, hat, hc, hsk, hprx, hrest⟩ | ⟨k1, k2, k3, k4, k5, k6, k7⟩
    · obtain ⟨s', c', e1, b1, b2, b3, b4, b5, b6⟩ := readLoop_spec hat ((x.s.docFreq - x.s.count).toNat + 1) (n := n) hc hx.del (by rw [hc.docFreq, hc.count]; omega)
      rw [e1, Res.ok_bind]
      refine ⟨⟨x.tir, s'⟩, by simp only [PCur.step]; rw [hrest], hx.reader, b4.trans hx.kind, b5 ▸ hx.del, Or.inl ⟨fp, pp, ps, c', hat, b1, ?_, fun hi => (by rw [hnp] at hi; cases hi), ?_⟩⟩
      · show (s'.skipCount - 1) * s'.si ≤ (c' : Int)
        unfold SkOK at hsk
        rw [b6, b1.siF]
        rw [hc.siF] at hsk
        exact Int.le_trans hsk (by omega)
      · show cur.rest.drop n = _
        rw [hrest, b2]
    · unfold readLoop
      rw [if_neg (by rw [k4]; omega), Res.ok_bind]
      refine ⟨⟨x.tir, x.s⟩, by simp only [PCur.step]; rw [k7]; simp, hx.reader, hx.kind, hx.del, Or.inr ⟨k1, k2, k3, k4, k5, fun hi => (by rw [hnp] at hi; cases hi), ?_⟩⟩
      show cur.rest.drop n = []
      rw [k7]; simp
  | position =>
    have hp : isPos = true := hop
    simp only [postStep]
    rcases hx.st with ⟨fp, pp, ps, c, hat, hc, hsk, hprx, hrest⟩ | ⟨k1, k2, k3, k4, k5, k6, k7⟩
    · obtain ⟨s', e1, b1, b2, b3, b4, b5⟩ := nextPosition_spec hat hc (hx.kind.trans hp) (hprx hp)
      rw [e1, Res.ok_bind]
      refine ⟨_, rfl, hx.reader, b3.trans hx.kind, b4 ▸ hx.del, Or.inl ⟨fp, pp, ps, c, hat, b1, ?_, fun _ => b2, hrest⟩⟩
      show (s'.skipCount - 1) * s'.si ≤ (c : Int)
      rw [b5, b1.siF, ← hc.siF]
      exact hsk
    · obtain ⟨k8, k9⟩ := k6 hp
      unfold nextPosition
      rw [if_pos (hx.kind.trans hp), if_neg (by omega), Res.ok_bind]
      refine ⟨⟨x.tir, { x.s with prxCnt := x.s.prxCnt - 1 }⟩, by simp only [PCur.step]; rw [k9]; rfl, hx.reader, hx.kind, hx.del, Or.inr ⟨k1, k2, k3, k4, k5, fun _ => ⟨?_, ?_⟩, k7⟩⟩
      · show x.s.prxCnt - 1 ≤ 0
        omega
      · show cur.left.tail = []
        rw [k9]; rfl

theorem postRun_spec {ii si : Nat} {fields : List (Nat × List (Term × List Posting))} (h : Segment ii si fields) (hsi : 0 < si) {sfi : SFI} {tis : List Byte} (hsfi : sfi.skipInterval = si)
    (hd : DictOK sfi tis (flushFields si [] [] fields).2.2) {dead : Nat → Bool} {isPos : Bool} : ∀ (ops : List PostOp) {x : PSess} {cur : PCur},
    PRel sfi tis (flushFields si [] [] fields).2.2 (flushFields si [] [] fields).1 (flushFields si [] [] fields).2.1 si dead isPos x cur → (∀ op ∈ ops, usable si isPos op = true) →
    postRun sfi tis x ops = .ok (cur.run fields dead ops) := by
  intro ops
  induction ops with
  | nil => intros; rfl
  | cons op ops ih =>
    intro x cur hx hops
    obtain ⟨x', e1, h1⟩ := postStep_spec h hsi hsfi hd hx op (hops op (List.mem_cons_self ..))
    unfold postRun
    rw [e1, Res.ok_bind, ih h1 fun o ho => hops o (List.mem_cons_of_mem _ ho), Res.ok_bind]
    rfl

/-- **C22.** For every segment and every skip interval, any history of `seek`, `next`,
`skip_to`, `read` and positions on an enumerator, of documents or of positions, shows what a linear scan
of the documents that are not deleted shows. Partial: `skip_to` only with skip intervals of at least 3,
and enumerators of positions not with `seek_te`; see the witnesses below. -/
theorem c22_session_partial (ii si : Nat) (fields : List (Nat × List (Term × List Posting))) (h : Segment ii si fields) (hsi : 0 < si) :
    ∃ fs, flush ii si fields = .ok fs ∧ (fs.dict.tis.length < 2 ^ 64 → fs.dict.tix.length < 2 ^ 64 →
      ∃ sfi, sfiOpen fs.dict = .ok sfi ∧ ∀ (isPos : Bool) (del : Option BitVector.BV) (dead : Nat → Bool), Deletes del dead → ∀ ops : List PostOp, (∀ op ∈ ops, usable si isPos op = true) →
        postRun sfi fs.dict.tis ⟨tirOpen, stdeNew isPos sfi.skipInterval del fs.frq fs.prx⟩ ops = .ok (PCur.run fields dead ⟨[], []⟩ ops)) := by
  have hw := flushed_dict h hsi
  obtain ⟨d, e1, h1⟩ := dict_spec ii si _ hw.fit
  refine ⟨⟨(flushFields si [] [] fields).1, (flushFields si [] [] fields).2.1, d⟩, by unfold flush; rw [if_neg (by omega)]; dsimp only; rw [e1, Res.ok_bind], fun l1 l2 => ?_⟩
  obtain ⟨sfi, e2, hsfi, -, hd⟩ := h1 l1 l2
  refine ⟨sfi, e2, fun isPos del dead hdel ops hops => ?_⟩
  have hdict : DictOK sfi d.tis (flushFields si [] [] fields).2.2 := fun f => ⟨hw.asc f, hd f⟩
  refine postRun_spec h hsi hsfi hdict ops ?_ hops
  exact ⟨readerOK_open hdict, rfl, hdel, Or.inr ⟨rfl, rfl, hsfi, rfl, Int.le_refl _, fun _ => ⟨Int.le_refl _, rfl⟩, rfl⟩⟩

/-! ### A case, and where the code falls short -/

/-- A session on a freshly written segment. -/
def session (ii si : Nat) (fields : List (Nat × List (Term × List Posting))) (isPos : Bool) (del : Option BitVector.BV) (ops : List PostOp) : Res (List PostOut) :=
  flush ii si fields >>= fun fs => sfiOpen fs.dict >>= fun sfi => postRun sfi fs.dict.tis ⟨tirOpen, stdeNew isPos sfi.skipInterval del fs.frq fs.prx⟩ ops

/-- Terms "a", in ten documents, and "b". -/
def seg22 : List (Nat × List (Term × List Posting)) :=
  [(1, [([97], (List.range 10).map fun d => ⟨d, 2, [d, d + 300]⟩), ([98], [⟨4, 1, [7]⟩])])]

example : Segment 2 3 seg22 := by
  constructor <;> try decide +kernel
  intro x hx y hy
  obtain rfl := List.mem_singleton.1 hx
  rcases List.mem_cons.1 hy with rfl | hy
  · constructor <;> decide +kernel
  · obtain rfl := List.mem_singleton.1 hy
    constructor <;> decide +kernel

/-- The deletions bit vector of a reader that has deleted document 7. -/
example : ∃ bv, BitVector.set BitVector.new 7 = .ok bv ∧ Deletes (some bv) (fun d => d == 7) := by
  obtain ⟨bv, e, w, -, -, -, -, b, -⟩ := BitVector.setValue_ok BitVector.new 7 true (BitVector.wf_newCapa 256)
  refine ⟨bv, e, fun d => ?_⟩
  show BitVector.get bv (d : Int) = _
  rw [BitVector.get_ok bv d w, b]
  by_cases h : d = 7
  · simp [h]
  · rw [if_neg h]
    rw [show BitVector.bitAt BitVector.new.bits BitVector.new.ext d = false from BitVector.bitAt_replicate_zero _ _]
    simp [h]

/-- With document 7 deleted: positions of the document skipped to, and what follows. -/
example : PCur.run seg22 (fun d => d == 7) ⟨[], []⟩ [.seek 1 [97], .skipTo 6, .position, .skipTo 7, .position, .position, .position, .next, .next] =
    [.done, .doc (some (6, 2)), .pos 6, .doc (some (8, 2)), .pos 8, .pos 308, .pos (-1), .doc (some (9, 2)), .doc none] := by decide +kernel

example : session 2 3 seg22 true none [.seek 1 [97], .skipTo 6, .position, .next, .position] =
    .ok [.done, .doc (some (6, 2)), .pos 6, .doc (some (7, 2)), .pos 7] := by decide +kernel

/-- The documents 0 to 4. -/
def first22 : List (Nat × List (Term × List Posting)) := [(0, [([97], (List.range 5).map fun d => ⟨d, 1, [3]⟩)])]

/-- With a skip interval of 1 or 2 the code miscounts after `skip_to` and goes on past the last document
(stde_skip_to, index.c 3032, takes a skip entry for document 0 to be none). A linear scan ends after
document 4. -/
theorem c22_small_interval_wrong :
    session 2 1 first22 false none [.seek 0 [97], .skipTo 3, .next, .next, .next] = .ok [.done, .doc (some (3, 1)), .doc (some (4, 1)), .doc (some (4, 0)), .doc (some (4, 0))] ∧
    (∃ l, session 2 2 first22 false none [.seek 0 [97], .skipTo 3, .next, .next] = .ok l ∧ l ≠ [.done, .doc (some (3, 1)), .doc (some (4, 1)), .doc none]) ∧
    PCur.run first22 (fun _ => false) ⟨[], []⟩ [.seek 0 [97], .skipTo 3, .next, .next, .next] = [.done, .doc (some (3, 1)), .doc (some (4, 1)), .doc none, .doc none] := by
  refine ⟨by decide +kernel, ⟨_, rfl, by decide +kernel⟩, by decide +kernel⟩

/-- Terms "a" at position 5 and "b" at position 9 of document 1. -/
def two22 : List (Nat × List (Term × List Posting)) := [(0, [([97], [⟨1, 1, [5]⟩]), ([98], [⟨1, 1, [9]⟩])])]

/-- An enumerator of positions that is given a term enumerator, index.c 2917 and 3215, does not move in
.prx: for "b" it shows the position of "a". -/
theorem c22_positions_seek_te_wrong :
    session 2 3 two22 true none [.seekTe 0 [98], .next, .position] = .ok [.done, .doc (some (1, 1)), .pos 5] ∧
    PCur.run two22 (fun _ => false) ⟨[], []⟩ [.seekTe 0 [98], .next, .position] = [.done, .doc (some (1, 1)), .pos 9] := by
  refine ⟨by decide +kernel, by decide +kernel⟩

#print axioms c22_session_partial
#print axioms c22_small_interval_wrong
#print axioms c22_positions_seek_te_wrong
end Ferret.Props
