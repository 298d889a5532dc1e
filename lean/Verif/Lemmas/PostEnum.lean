import Verif.Lemmas.Postings

/-! The enumerator over the postings of a term. -/

namespace Ferret.Post
open Ferret Ferret.Dict

/-! ### Reading at a position -/

theorem rdAt_ok {α : Type} {rd : Rd α} {file e rest : List Byte} {p : Nat} {x : α} (hp : p ≤ file.length) (hf : file.drop p = e ++ rest) (hr : rd (e ++ rest) = .ok (x, rest)) :
    rdAt rd file p = .ok (x, p + e.length) ∧ file.drop (p + e.length) = rest ∧ p + e.length ≤ file.length := by
  have hl := congrArg List.length hf
  rw [List.length_drop, List.length_append] at hl
  refine ⟨?_, ?_, by omega⟩
  · unfold rdAt
    rw [hf, hr, Res.ok_bind]
    dsimp only
    rw [show file.length - rest.length = p + e.length by omega]
  · rw [← List.drop_drop, hf, List.drop_left]

theorem skipVint_vbytes : ∀ (fuel n : Nat) (rest : List Byte), n < 128 ^ fuel → 0 < fuel → skipVint (vbytes fuel n ++ rest) = .ok ((), rest) := by
  intro fuel
  induction fuel with
  | zero => intro n rest _ h; omega
  | succ f ih =>
    intro n rest hn _
    unfold vbytes
    by_cases h : n > 127
    · rw [if_pos h, List.cons_append]
      unfold skipVint
      rw [if_pos (by rw [byteOf_toNat _ (by omega)]; omega)]
      have hf : 0 < f := by
        cases f with
        | zero => simp at hn; omega
        | succ f => omega
      refine ih _ _ ?_ hf
      rw [Nat.div_lt_iff_lt_mul (by omega)]
      rw [Nat.pow_succ] at hn
      exact hn
    · rw [if_neg h]
      show skipVint (byteOf n :: rest) = _
      unfold skipVint
      rw [if_neg (by rw [byteOf_toNat _ (by omega)]; omega)]

theorem skipVint_vint (n : Nat) (h : n < 2 ^ 32) (rest : List Byte) : skipVint (vint n ++ rest) = .ok ((), rest) :=
  skipVint_vbytes 10 n rest (Nat.lt_of_lt_of_le h (by decide)) (by decide)

theorem toU_lt (x : Int) : toU 4 x < 2 ^ 32 := by
  unfold toU
  have := Int.emod_lt_of_pos x (b := ((256 ^ 4 : Nat) : Int)) (by decide)
  have := Int.emod_nonneg x (b := ((256 ^ 4 : Nat) : Int)) (by decide)
  omega

theorem skipVints_prx : ∀ (xs : List Int) (last : Int) (rest : List Byte), skipVints xs.length (prxBytes last xs ++ rest) = .ok ((), rest) := by
  intro xs
  induction xs with
  | nil => intros; rfl
  | cons x xs ih =>
    intro last rest
    simp only [List.length_cons, skipVints, prxBytes, List.append_assoc]
    rw [skipVint_vint _ (toU_lt _), Res.ok_bind, ih]

theorem toU_add (a b : Int) : (toU 4 a + toU 4 b) % 2 ^ 32 = toU 4 (a + b) := by
  unfold toU
  have h1 := Int.emod_nonneg a (b := ((256 ^ 4 : Nat) : Int)) (by decide)
  have h2 := Int.emod_nonneg b (b := ((256 ^ 4 : Nat) : Int)) (by decide)
  have h3 : ((256 ^ 4 : Nat) : Int) = 4294967296 := by decide
  rw [h3] at *
  omega

theorem position_ok (a x : Int) (hx1 : -2 ^ 31 ≤ x) (hx2 : x < 2 ^ 31) : toS 4 ((toU 4 a + toU 4 (x - a)) % 2 ^ 32) = x := by
  rw [toU_add, show a + (x - a) = x by omega]
  exact (toS_toU 4 x (by omega) (by omega)).1

/-! ### Where the enumerator is -/

/-- The postings of a term, where they are in the files, and which documents are deleted. -/
structure At (frq prx : List Byte) (si fp pp : Nat) (ps : List Posting) : Prop where
  ok : PsOK ps
  siPos : 0 < si
  frqAt : ∃ rest, frq.drop fp = encFrq 0 ps ++ (encSkip ps si 0 (ps.length / si) ++ rest)
  frqLe : fp ≤ frq.length
  prxAt : ∃ rest, prx.drop pp = encPrx ps ++ rest
  prxLe : pp ≤ prx.length

/-- The enumerator has read `c` documents. -/
structure Core (frq prx : List Byte) (si fp pp : Nat) (ps : List Posting) (s : STDE) (c : Nat) : Prop where
  frqF : s.frq = frq
  prxF : s.prx = prx
  siF : s.si = si
  le : c ≤ ps.length
  count : s.count = c
  docFreq : s.docFreq = ps.length
  docNum : s.docNum = D ps c
  frqAt : s.frqAt = fp + F ps c
  numSkips : s.numSkips = (ps.length / si : Nat)
  skip : ∃ j : Nat, s.skipCount = j ∧ j ≤ ps.length / si ∧ s.skipDoc = D ps (j * si - 1) ∧ s.frqPtr = fp + F ps (j * si - 1) ∧ s.prxPtr = pp + P ps (j * si - 1) ∧
    (s.haveSkipped = false → j = 0 ∧ (si ≤ ps.length → s.skipPtr = fp + (encFrq 0 ps).length)) ∧
    (s.haveSkipped = true → s.skipAt = fp + (encFrq 0 ps).length + (encSkip ps si 0 j).length)

/-- The positions left to read of the current document, `left`, from `s.position`. -/
structure Prx (prx : List Byte) (pp : Nat) (ps : List Posting) (s : STDE) (c : Nat) (left : List Int) : Prop where
  cnt : s.prxCnt.toNat = left.length
  at' : s.prxAt + (prxBytes s.position left).length = pp + P ps c
  bytes : prx.drop s.prxAt = prxBytes s.position left ++ prx.drop (pp + P ps c)
  range : ∀ x ∈ left, -1 ≤ x ∧ x < 2 ^ 31

theorem frq_drop {frq prx : List Byte} {si fp pp : Nat} {ps : List Posting} (h : At frq prx si fp pp ps) (c : Nat) :
    ∃ rest, frq.drop (fp + F ps c) = encFrq (D ps c) (ps.drop c) ++ rest ∧ fp + F ps c ≤ frq.length := by
  obtain ⟨rest, hr⟩ := h.frqAt
  refine ⟨encSkip ps si 0 (ps.length / si) ++ rest, ?_⟩
  have : encFrq 0 ps = encFrq 0 (ps.take c) ++ encFrq (D ps c) (ps.drop c) := by
    conv => lhs; rw [← List.take_append_drop c ps]
    exact encFrq_append _ _ _
  refine ⟨?_, ?_⟩
  · rw [← List.drop_drop, hr, this, List.append_assoc]
    exact List.drop_left
  · have hl := congrArg List.length hr
    rw [List.length_drop, List.length_append] at hl
    have := F_le_all ps c
    have := h.frqLe
    omega

theorem prx_drop {frq prx : List Byte} {si fp pp : Nat} {ps : List Posting} (h : At frq prx si fp pp ps) (c : Nat) :
    (∀ p, ps[c]? = some p → prx.drop (pp + P ps c) = prxBytes 0 p.occ ++ prx.drop (pp + P ps (c + 1))) ∧ pp + P ps c ≤ prx.length := by
  obtain ⟨rest, hr⟩ := h.prxAt
  have hl := congrArg List.length hr
  rw [List.length_drop, List.length_append] at hl
  have hp := P_le_all ps c
  have hle := h.prxLe
  have key : ∀ c, prx.drop (pp + P ps c) = encPrx (ps.drop c) ++ rest := by
    intro c
    have : encPrx ps = encPrx (ps.take c) ++ encPrx (ps.drop c) := by
      conv => lhs; rw [← List.take_append_drop c ps]
      exact encPrx_append _ _
    rw [← List.drop_drop, hr, this, List.append_assoc]
    exact List.drop_left
  refine ⟨fun p hp => ?_, by omega⟩
  rw [key, key]
  have hlt := (List.getElem?_eq_some_iff.1 hp).1
  have he := (List.getElem?_eq_some_iff.1 hp).2
  rw [List.drop_eq_getElem_cons hlt, he]
  simp only [encPrx, List.append_assoc]

/-! ### Reading a document -/

theorem readDoc_spec {frq prx : List Byte} {si fp pp : Nat} {ps : List Posting} (h : At frq prx si fp pp ps) {s : STDE} {c : Nat} (hs : Core frq prx si fp pp ps s c) {p : Posting} (hp : ps[c]? = some p) :
    readDoc s = .ok { s with docNum := p.doc, freq := p.freq, frqAt := fp + F ps (c + 1), count := (c : Int) + 1 } := by
  obtain ⟨rest, hd, hle⟩ := frq_drop h c
  obtain ⟨hlt, he⟩ := List.getElem?_eq_some_iff.1 hp
  rw [List.drop_eq_getElem_cons hlt, he] at hd
  simp only [encFrq, List.append_assoc] at hd
  have hdoc : D ps c ≤ p.doc := by
    rw [← D_succ hp]
    exact D_le h.ok (by omega) (by omega)
  have hmax := h.ok.docLt p (List.mem_of_getElem? hp)
  obtain ⟨-, hf1, hf2⟩ := h.ok.freq p (List.mem_of_getElem? hp)
  have hF := F_succ hp
  unfold readDoc
  rw [hs.frqF, hs.frqAt]
  by_cases h1 : p.freq = 1
  · have hb : frqBytes (D ps c) p = vint (2 * (p.doc - D ps c) + 1) := by
      unfold frqBytes
      dsimp only
      rw [if_pos h1, show (((p.doc : Int) - (D ps c : Int)) * 2 + 1) = ((2 * (p.doc - D ps c) + 1 : Nat) : Int) by omega, toU_nat _ (by omega)]
    rw [hb] at hd hF
    obtain ⟨e1, e2, e3⟩ := rdAt_ok hle hd (rdVint_vint _ (by omega) _)
    rw [e1, Res.ok_bind]
    dsimp only
    rw [toS_nat _ (by omega), if_pos (by omega), Res.ok_bind, hF, hs.docNum, hs.count]
    simp only [Res.ok.injEq]
    rw [show ((D ps c : Int) + ((2 * (p.doc - D ps c) + 1 : Nat) : Int) / 2) = p.doc by omega, h1, Nat.add_assoc]
    rfl
  · have hb : frqBytes (D ps c) p = vint (2 * (p.doc - D ps c)) ++ vint p.freq := by
      unfold frqBytes
      dsimp only
      rw [if_neg h1, show (((p.doc : Int) - (D ps c : Int)) * 2) = ((2 * (p.doc - D ps c) : Nat) : Int) by omega, toU_nat _ (by omega)]
    rw [hb, List.length_append] at hF
    rw [hb, List.append_assoc] at hd
    obtain ⟨e1, e2, e3⟩ := rdAt_ok hle hd (rdVint_vint _ (by omega) _)
    rw [e1, Res.ok_bind]
    dsimp only
    rw [toS_nat _ (by omega), if_neg (by omega)]
    obtain ⟨e4, e5, e6⟩ := rdAt_ok e3 e2 (rdVint_vint _ (by omega) _)
    rw [e4, Res.ok_bind, Res.ok_bind]
    dsimp only
    rw [toS_nat _ (by omega), hF, hs.docNum, hs.count]
    simp only [Res.ok.injEq]
    rw [show ((D ps c : Int) + ((2 * (p.doc - D ps c) : Nat) : Int) / 2) = p.doc by omega]
    congr 1
    omega

/-- The enumerator after reading a document. -/
theorem Core.read {frq prx : List Byte} {si fp pp : Nat} {ps : List Posting} {s : STDE} {c : Nat} (hs : Core frq prx si fp pp ps s c) {p : Posting} (hp : ps[c]? = some p) :
    Core frq prx si fp pp ps { s with docNum := p.doc, freq := p.freq, frqAt := fp + F ps (c + 1), count := (c : Int) + 1 } (c + 1) := by
  have hlt := (List.getElem?_eq_some_iff.1 hp).1
  exact ⟨hs.frqF, hs.prxF, hs.siF, by omega, by show (c : Int) + 1 = _; omega, hs.docFreq, by rw [D_succ hp], rfl, hs.numSkips, hs.skip⟩

/-- Other fields do not matter. -/
theorem Core.prxTo {frq prx : List Byte} {si fp pp : Nat} {ps : List Posting} {s : STDE} {c : Nat} (hs : Core frq prx si fp pp ps s c) (a : Nat) (b d : Int) :
    Core frq prx si fp pp ps { s with prxAt := a, prxCnt := b, position := d } c :=
  ⟨hs.frqF, hs.prxF, hs.siF, hs.le, hs.count, hs.docFreq, hs.docNum, hs.frqAt, hs.numSkips, hs.skip⟩

/-! ### Next -/

/-- The deleted documents. -/
def Deletes (del : Option BitVector.BV) (dead : Nat → Bool) : Prop :=
  ∀ d : Nat, (match del with
    | none => .ok false
    | some bv => BitVector.get bv (d : Int)) = Res.ok (dead d)

def live (dead : Nat → Bool) (ps : List Posting) : List Posting := ps.filter fun p => !dead p.doc

theorem live_drop {dead : Nat → Bool} {ps : List Posting} {c : Nat} {p : Posting} (hp : ps[c]? = some p) :
    live dead (ps.drop c) = if dead p.doc then live dead (ps.drop (c + 1)) else p :: live dead (ps.drop (c + 1)) := by
  obtain ⟨hlt, he⟩ := List.getElem?_eq_some_iff.1 hp
  rw [List.drop_eq_getElem_cons hlt, he]
  unfold live
  rw [List.filter_cons]
  cases dead p.doc <;> simp

/-- What `nextLoop` does from `c`: the following live document, or none. -/
structure NextTo (frq prx : List Byte) (si fp pp : Nat) (ps : List Posting) (dead : Nat → Bool) (s : STDE) (c : Nat) (s' : STDE) (b : Bool) : Prop where
  same : s'.isPos = s.isPos ∧ s'.del = s.del ∧ s'.prxCnt = s.prxCnt ∧ s'.position = s.position ∧ (s.isPos = false → s'.prxAt = s.prxAt) ∧ s'.skipCount = s.skipCount
  found : (b = true ∧ ∃ c' p, c ≤ c' ∧ ps[c']? = some p ∧ dead p.doc = false ∧ live dead (ps.drop c) = p :: live dead (ps.drop (c' + 1)) ∧
      Core frq prx si fp pp ps s' (c' + 1) ∧ s'.freq = p.freq ∧ (s.isPos = true → s'.prxAt = pp + P ps c')) ∨
    (b = false ∧ live dead (ps.drop c) = [] ∧ Core frq prx si fp pp ps s' ps.length ∧ (s.isPos = true → s'.prxAt = pp + P ps ps.length))

theorem nextLoop_spec {frq prx : List Byte} {si fp pp : Nat} {ps : List Posting} (h : At frq prx si fp pp ps) {dead : Nat → Bool} : ∀ (fuel : Nat) {s : STDE} {c : Nat},
    Core frq prx si fp pp ps s c → Deletes s.del dead → (s.isPos = true → s.prxAt = pp + P ps c) → ps.length - c < fuel →
    ∃ s' b, nextLoop fuel s = .ok (s', b) ∧ NextTo frq prx si fp pp ps dead s c s' b := by
  intro fuel
  induction fuel with
  | zero => intro s c _ _ _ hf; omega
  | succ fuel ih =>
    intro s c hs hdel hprx hf
    unfold nextLoop
    by_cases hend : c = ps.length
    · rw [if_pos (by rw [hs.count, hs.docFreq, hend]; exact Int.le_refl _)]
      refine ⟨s, false, rfl, ⟨rfl, rfl, rfl, rfl, fun _ => rfl, rfl⟩, Or.inr ⟨rfl, ?_, ?_, ?_⟩⟩
      · rw [hend, List.drop_length]; rfl
      · rw [← hend]; exact hs
      · rw [← hend]; exact hprx
    · have hlt : c < ps.length := by have := hs.le; omega
      rw [if_neg (by rw [hs.count, hs.docFreq]; omega)]
      have hp : ps[c]? = some ps[c] := List.getElem?_eq_getElem hlt
      rw [readDoc_spec h hs hp, Res.ok_bind]
      have hread := hs.read hp
      have hd : isDeleted { s with docNum := (ps[c].doc : Int), freq := (ps[c].freq : Int), frqAt := fp + F ps (c + 1), count := (c : Int) + 1 } = .ok (dead ps[c].doc) := hdel ps[c].doc
      rw [hd, Res.ok_bind]
      have hlive := live_drop (dead := dead) hp
      cases hdd : dead ps[c].doc with
      | false =>
        rw [if_neg (by decide)]
        refine ⟨_, true, rfl, ⟨rfl, rfl, rfl, rfl, fun _ => rfl, rfl⟩, Or.inl ⟨rfl, c, ps[c], Nat.le_refl _, hp, hdd, ?_, hread, rfl, hprx⟩⟩
        rw [hlive, hdd, if_neg (by decide)]
      | true =>
        rw [if_pos rfl]
        rw [hdd, if_pos rfl] at hlive
        have fin : ∀ {s1 : STDE}, Core frq prx si fp pp ps s1 (c + 1) → s1.isPos = s.isPos → s1.del = s.del → s1.prxCnt = s.prxCnt → s1.position = s.position → (s.isPos = false → s1.prxAt = s.prxAt) → s1.skipCount = s.skipCount →
            (s1.isPos = true → s1.prxAt = pp + P ps (c + 1)) → ∃ s' b, nextLoop fuel s1 = .ok (s', b) ∧ NextTo frq prx si fp pp ps dead s c s' b := by
          intro s1 g1 g2 g3 g4 g5 g6 g8 g7
          obtain ⟨s', b, e1, ⟨a1, a2, a3, a4, a5, a6⟩, hfo⟩ := ih g1 (g3 ▸ hdel) g7 (by omega)
          refine ⟨s', b, e1, ⟨a1.trans g2, a2.trans g3, a3.trans g4, a4.trans g5, fun hh => (a5 (g2.trans hh)).trans (g6 hh), a6.trans g8⟩, ?_⟩
          rw [hlive]
          rcases hfo with ⟨b1, c', p, c1, c2, c3, c4, c5, c6, c7⟩ | ⟨b1, c1, c2, c3⟩
          · exact Or.inl ⟨b1, c', p, by omega, c2, c3, c4, c5, c6, fun hh => c7 (g2.trans hh)⟩
          · exact Or.inr ⟨b1, c1, c2, fun hh => c3 (g2.trans hh)⟩
        unfold skipProx
        dsimp only
        by_cases hpos : s.isPos = true
        · rw [if_pos hpos]
          obtain ⟨hb, hple⟩ := prx_drop h c
          have hb := hb _ hp
          have hfr := (h.ok.freq _ (List.mem_of_getElem? hp)).1
          obtain ⟨e1, e2, e3⟩ := rdAt_ok (rd := skipVints ps[c].occ.length) hple hb (skipVints_prx _ _ _)
          have e1' : rdAt (skipVints (ps[c].freq : Int).toNat) s.prx s.prxAt = .ok ((), pp + P ps c + (prxBytes 0 ps[c].occ).length) := by
            rw [hs.prxF, hprx hpos, show ((ps[c].freq : Int)).toNat = ps[c].occ.length by omega, e1]
          rw [e1', Res.ok_bind, Res.ok_bind]
          refine fin (hread.prxTo (pp + P ps c + (prxBytes 0 ps[c].occ).length) s.prxCnt s.position) rfl rfl rfl rfl (fun hh => by rw [hpos] at hh; cases hh) rfl (fun _ => ?_)
          show pp + P ps c + _ = _
          rw [P_succ hp]; omega
        · rw [if_neg hpos, Res.ok_bind]
          exact fin hread rfl rfl rfl rfl (fun _ => rfl) rfl (fun hh => absurd hh hpos)

/-- What tde->next does. -/
structure Stepped (frq prx : List Byte) (si fp pp : Nat) (ps : List Posting) (dead : Nat → Bool) (s : STDE) (c : Nat) (s' : STDE) (b : Bool) : Prop where
  same : s'.isPos = s.isPos ∧ s'.del = s.del ∧ s'.skipCount = s.skipCount
  found : (b = true ∧ ∃ c' p, c ≤ c' ∧ ps[c']? = some p ∧ dead p.doc = false ∧ live dead (ps.drop c) = p :: live dead (ps.drop (c' + 1)) ∧
      Core frq prx si fp pp ps s' (c' + 1) ∧ s'.freq = p.freq ∧ (s.isPos = true → Prx prx pp ps s' (c' + 1) p.occ ∧ s'.position = 0)) ∨
    (b = false ∧ live dead (ps.drop c) = [] ∧ Core frq prx si fp pp ps s' ps.length ∧ (s.isPos = true → Prx prx pp ps s' ps.length []))

theorem next_spec {frq prx : List Byte} {si fp pp : Nat} {ps : List Posting} (h : At frq prx si fp pp ps) {dead : Nat → Bool} {s : STDE} {c : Nat} {left : List Int}
    (hs : Core frq prx si fp pp ps s c) (hdel : Deletes s.del dead) (hprx : s.isPos = true → Prx prx pp ps s c left) :
    ∃ s' b, next s = .ok (s', b) ∧ Stepped frq prx si fp pp ps dead s c s' b := by
  have hfuel : ps.length - c < (s.docFreq - s.count).toNat + 1 := by rw [hs.docFreq, hs.count]; omega
  unfold next
  by_cases hpos : s.isPos = true
  · rw [if_pos hpos]
    have hp := hprx hpos
    have hple : s.prxAt ≤ prx.length := by
      have := (prx_drop h c).2
      have := hp.at'
      omega
    unfold stpeNext
    obtain ⟨e1, e2, e3⟩ := rdAt_ok (rd := skipVints left.length) hple hp.bytes (skipVints_prx _ _ _)
    rw [show rdAt (skipVints s.prxCnt.toNat) s.prx s.prxAt = .ok ((), s.prxAt + (prxBytes s.position left).length) by rw [hs.prxF, hp.cnt, e1], Res.ok_bind]
    have hcore : Core frq prx si fp pp ps { s with prxAt := s.prxAt + (prxBytes s.position left).length } c := hs.prxTo _ s.prxCnt s.position
    obtain ⟨s', b, e4, ⟨a1, a2, a3, a4, a5, a6⟩, hfo⟩ := nextLoop_spec h ((s.docFreq - s.count).toNat + 1) hcore hdel (fun _ => hp.at') hfuel
    have e5 : stdeNext { s with prxAt := s.prxAt + (prxBytes s.position left).length } = .ok (s', b) := e4
    dsimp only
    rw [e5, Res.ok_bind]
    dsimp only
    rcases hfo with ⟨b1, c', p, c1, c2, c3, c4, c5, c6, c7⟩ | ⟨b1, c1, c2, c3⟩
    · subst b1
      rw [if_pos rfl]
      refine ⟨_, _, rfl, ⟨a1, a2, a6⟩, Or.inl ⟨rfl, c', p, c1, c2, c3, c4, c5.prxTo s'.prxAt s'.freq 0, c6, fun _ => ⟨?_, rfl⟩⟩⟩
      have hfr := (h.ok.freq _ (List.mem_of_getElem? c2)).1
      refine ⟨?_, ?_, ?_, h.ok.occ p (List.mem_of_getElem? c2)⟩
      · show s'.freq.toNat = _
        rw [c6]; omega
      · show s'.prxAt + _ = _
        rw [c7 hpos, P_succ c2]; show pp + P ps c' + (prxBytes 0 p.occ).length = _; omega
      · show prx.drop s'.prxAt = _
        rw [c7 hpos]
        exact (prx_drop h c').1 p c2
    · subst b1
      rw [if_neg (by decide)]
      refine ⟨_, _, rfl, ⟨a1, a2, a6⟩, Or.inr ⟨rfl, c1, c2.prxTo s'.prxAt 0 0, fun _ => ⟨rfl, c3 hpos, ?_, fun x hx => nomatch hx⟩⟩⟩
      show prx.drop s'.prxAt = _
      rw [c3 hpos]; rfl

  · rw [if_neg hpos]
    obtain ⟨s', b, e1, ⟨a1, a2, -, -, -, a6⟩, hfo⟩ := nextLoop_spec h _ hs hdel (fun hh => absurd hh hpos) hfuel
    refine ⟨s', b, e1, ⟨a1, a2, a6⟩, ?_⟩
    rcases hfo with ⟨b1, c', p, c1, c2, c3, c4, c5, c6, -⟩ | ⟨b1, c1, c2, -⟩
    · exact Or.inl ⟨b1, c', p, c1, c2, c3, c4, c5, c6, fun hh => absurd hh hpos⟩
    · exact Or.inr ⟨b1, c1, c2, fun hh => absurd hh hpos⟩

/-- stpe_next_position. -/
theorem nextPosition_spec {frq prx : List Byte} {si fp pp : Nat} {ps : List Posting} (h : At frq prx si fp pp ps) {s : STDE} {c : Nat} {left : List Int}
    (hs : Core frq prx si fp pp ps s c) (hpos : s.isPos = true) (hprx : Prx prx pp ps s c left) :
    ∃ s', nextPosition s = .ok (s', left.head?.getD (-1)) ∧ Core frq prx si fp pp ps s' c ∧ Prx prx pp ps s' c left.tail ∧ s'.isPos = s.isPos ∧ s'.del = s.del ∧ s'.skipCount = s.skipCount := by
  unfold nextPosition
  rw [if_pos hpos]
  have hc := hprx.cnt
  cases left with
  | nil =>
    rw [if_neg (by simp only [List.length_nil] at hc; omega)]
    refine ⟨_, rfl, hs.prxTo s.prxAt (s.prxCnt - 1) s.position, ⟨?_, hprx.at', hprx.bytes, fun x hx => nomatch hx⟩, rfl, rfl, rfl⟩
    show (s.prxCnt - 1).toNat = 0
    simp only [List.length_nil] at hc
    omega
  | cons x left =>
    simp only [List.length_cons] at hc
    rw [if_pos (by omega)]
    have hb := hprx.bytes
    have ha := hprx.at'
    simp only [prxBytes, List.append_assoc, List.length_append] at hb ha
    have hple : s.prxAt ≤ prx.length := by
      have := (prx_drop h c).2
      omega
    obtain ⟨e1, e2, e3⟩ := rdAt_ok hple hb (rdVint_vint _ (toU_lt _) _)
    obtain ⟨r1, r2⟩ := hprx.range x (List.mem_cons_self ..)
    have e1' : rdAt rdVint s.prx s.prxAt = .ok (toU 4 (x - s.position), s.prxAt + (vint (toU 4 (x - s.position))).length) := by rw [hs.prxF]; exact e1
    rw [e1', Res.ok_bind]
    dsimp only
    rw [position_ok _ _ (by omega) r2]
    refine ⟨_, rfl, hs.prxTo _ _ _, ⟨?_, ?_, e2, fun y hy => hprx.range y (List.mem_cons_of_mem _ hy)⟩, rfl, rfl, rfl⟩
    · show (s.prxCnt - 1).toNat = left.length
      omega
    · show s.prxAt + _ + (prxBytes x left).length = _
      omega

/-! ### Reading many -/

theorem readLoop_spec {frq prx : List Byte} {si fp pp : Nat} {ps : List Posting} (h : At frq prx si fp pp ps) {dead : Nat → Bool} : ∀ (fuel : Nat) {n : Nat} {s : STDE} {c : Nat},
    Core frq prx si fp pp ps s c → Deletes s.del dead → ps.length - c < fuel →
    ∃ s' c', readLoop fuel n s = .ok (s', ((live dead (ps.drop c)).take n).map fun p => ((p.doc : Int), (p.freq : Int))) ∧ Core frq prx si fp pp ps s' c' ∧ live dead (ps.drop c') = (live dead (ps.drop c)).drop n ∧
      c ≤ c' ∧ s'.isPos = s.isPos ∧ s'.del = s.del ∧ s'.skipCount = s.skipCount := by
  intro fuel
  induction fuel with
  | zero => intro n s c _ _ hf; omega
  | succ fuel ih =>
    intro n s c hs hdel hf
    unfold readLoop
    by_cases hend : c = ps.length
    · rw [if_neg (by rw [hs.count, hs.docFreq, hend]; omega)]
      refine ⟨s, c, ?_, hs, ?_, Nat.le_refl _, rfl, rfl, rfl⟩
      · rw [hend, List.drop_length]; simp [live]
      · rw [hend, List.drop_length]; simp [live]
    · have hlt : c < ps.length := by have := hs.le; omega
      cases n with
      | zero => rw [if_neg (by omega)]; exact ⟨s, c, by simp, hs, by simp, Nat.le_refl _, rfl, rfl, rfl⟩
      | succ n =>
      rw [if_pos (by rw [hs.count, hs.docFreq]; omega)]
      have hp : ps[c]? = some ps[c] := List.getElem?_eq_getElem hlt
      rw [readDoc_spec h hs hp, Res.ok_bind]
      have hread := hs.read hp
      have hd : isDeleted { s with docNum := (ps[c].doc : Int), freq := (ps[c].freq : Int), frqAt := fp + F ps (c + 1), count := (c : Int) + 1 } = .ok (dead ps[c].doc) := hdel ps[c].doc
      rw [hd, Res.ok_bind]
      have hlive := live_drop (dead := dead) hp
      cases hdd : dead ps[c].doc with
      | false =>
        rw [if_neg (by decide)]
        rw [hdd, if_neg (by decide)] at hlive
        obtain ⟨s', c', e1, a1, a2, a0, a3, a4⟩ := ih (n := n) hread hdel (by omega)
        rw [show n + 1 - 1 = n by omega, e1, Res.ok_bind, hlive]
        exact ⟨s', c', by simp, a1, by simpa using a2, by omega, a3, a4⟩
      | true =>
        rw [if_pos rfl]
        rw [hdd, if_pos rfl] at hlive
        obtain ⟨s', c', e1, a1, a2, a0, a3, a4⟩ := ih (n := n + 1) hread hdel (by omega)
        rw [hlive]
        exact ⟨s', c', e1, a1, a2, by omega, a3, a4⟩

end Ferret.Post
