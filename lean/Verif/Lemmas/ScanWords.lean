import Verif.Lemmas.ScanRun
import Verif.Spec.Tokens

/-! Scanners: texts of words and plain separators, and the tokens of a text. -/

namespace Ferret.Scan
open Ferret Ferret.Spec

/-- Only `te` and the pattern are changed. -/
def quiet (M : Machine) (cs : List Nat) : Bool := cs.all fun c => match M.act[c]? with
  | some .mark => true
  | some (.setAct _) => true
  | _ => false

/-- From a state a letter or digit leads into a state of words. -/
def okLetter (M : Machine) (signed : Bool) (words : List Nat) (cs : Nat) (b : Byte) : Bool :=
  match delta M.tables signed cs b with
  | some (t, acts) => words.contains t && quiet M acts
  | none => false

/-- A transition with a single action. -/
def okSole (M : Machine) (signed : Bool) (cs : Nat) (b : Byte) (a : Act) : Bool :=
  match delta M.tables signed cs b with
  | some (_, [c]) => decide (M.act[c]? = some a)
  | _ => false

/-- All of it. `sep` are the separators. -/
def okWords (M : Machine) (signed : Bool) (entry : Nat) (sep : Byte → Bool) (words : List Nat) : Bool :=
  ((List.range 256).all fun i => let b := UInt8.ofNat i
    (!isAlnum b || (okLetter M signed words entry b && words.all fun s => okLetter M signed words s b)) &&
    (!(sep b) || (okSole M signed entry b (.pass .next) && decide ((delta M.tables signed entry b).map (·.1) = some entry))) &&
    (!(sep b || decide (i = 0)) || words.all fun s => okSole M signed s b (.emit .here none false))) &&
  okSole M signed entry 0 .stop &&
  words.all fun s => decide (s ≠ 0) && decide (M.tables.fromState[s]? = some 0) && decide (M.tables.toState[s]? = some 0)

structure WordCert (M : Machine) (signed : Bool) (entry : Nat) (sep : Byte → Bool) (words : List Nat) : Prop where
  start : ∃ c x d, rowOf M.tables M.start = some ⟨[], [], [c]⟩ ∧ transOf M.tables c = some (x, [d]) ∧ M.act[d]? = some (.call entry)
  none0 : codesAt M.tables 0 = some []
  startFrom : M.tables.fromState[M.start]? = some 0
  entryFrom : ∃ o c, M.tables.fromState[entry]? = some o ∧ codesAt M.tables o = some [c] ∧ M.act[c]? = some .tsHere
  entryTo : ∃ o c, M.tables.toState[entry]? = some o ∧ codesAt M.tables o = some [c] ∧ M.act[c]? = some .tsNull
  entryPos : entry ≠ 0
  letter : ∀ s b, s = entry ∨ s ∈ words → isAlnum b = true → ∃ t acts, delta M.tables signed s b = some (t, acts) ∧ t ∈ words ∧ quiet M acts = true
  skip : ∀ b, sep b = true → ∃ c, delta M.tables signed entry b = some (entry, [c]) ∧ M.act[c]? = some (.pass .next)
  ends : ∀ s b, s ∈ words → sep b = true ∨ b = 0 → ∃ t c, delta M.tables signed s b = some (t, [c]) ∧ M.act[c]? = some (.emit .here none false)
  stop : ∃ t c, delta M.tables signed entry 0 = some (t, [c]) ∧ M.act[c]? = some .stop
  words : ∀ s ∈ words, s ≠ 0 ∧ M.tables.fromState[s]? = some 0 ∧ M.tables.toState[s]? = some 0

variable {M : Machine} {signed : Bool} {entry : Nat} {sep : Byte → Bool} {words : List Nat} {text : List Byte} {outSize : Nat}

theorem okLetter_spec {s : Nat} {b : Byte} (h : okLetter M signed words s b = true) : ∃ t acts, delta M.tables signed s b = some (t, acts) ∧ t ∈ words ∧ quiet M acts = true := by
  unfold okLetter at h
  split at h
  · rename_i t acts ht
    simp only [Bool.and_eq_true, List.contains_iff_mem] at h
    exact ⟨t, acts, ht, h.1, h.2⟩
  · cases h

theorem okSole_spec {s : Nat} {b : Byte} {a : Act} (h : okSole M signed s b a = true) : ∃ t c, delta M.tables signed s b = some (t, [c]) ∧ M.act[c]? = some a := by
  unfold okSole at h
  split at h
  · rename_i t c ht
    exact ⟨t, c, ht, of_decide_eq_true h⟩
  · cases h

theorem wordCert_of {ml : Nat} {lim : Lim} {known : Known} (C : Cert M signed entry ml lim known) (h : okWords M signed entry sep words = true) : WordCert M signed entry sep words := by
  unfold okWords at h
  simp only [Bool.and_eq_true, List.all_eq_true, List.mem_range] at h
  obtain ⟨⟨h1, h2⟩, h3⟩ := h
  have byte : ∀ b : Byte, UInt8.ofNat b.toNat = b := fun b => UInt8.ofNat_toNat
  refine ⟨C.start, C.none0, C.startFrom, C.entryFrom, C.entryTo, C.entryPos, fun s b hs hb => ?_, fun b hb => ?_, fun s b hs hb => ?_, okSole_spec h2, fun s hs => ?_⟩
  · have := (h1 b.toNat (UInt8.toNat_lt b)).1.1
    rw [byte, hb] at this
    simp only [Bool.not_true, Bool.false_or, Bool.and_eq_true, List.all_eq_true] at this
    rcases hs with rfl | hs
    · exact okLetter_spec this.1
    · exact okLetter_spec (this.2 s hs)
  · have := (h1 b.toNat (UInt8.toNat_lt b)).1.2
    rw [byte, hb] at this
    simp only [Bool.not_true, Bool.false_or, Bool.and_eq_true, decide_eq_true_eq] at this
    obtain ⟨t, c, ht, hc⟩ := okSole_spec this.1
    rw [ht] at this
    have he : t = entry := Option.some.inj this.2
    subst he
    exact ⟨c, ht, hc⟩
  · have := (h1 b.toNat (UInt8.toNat_lt b)).2
    rw [byte] at this
    have hx : (sep b || decide (b.toNat = 0)) = true := by
      rcases hb with hb | hb
      · rw [hb]; rfl
      · rw [hb]; simp
    rw [hx] at this
    simp only [Bool.not_true, Bool.false_or, List.all_eq_true] at this
    exact okSole_spec (this s hs)
  · have := h3 s hs
    simp only [decide_eq_true_eq] at this
    exact ⟨this.1.1, this.1.2, this.2⟩

theorem quiet_acts : ∀ (acts : List Nat) (σ : St), quiet M acts = true →
    ∃ te act, doActs M σ acts = .ok (.cont { σ with te := te, act := act }) := by
  intro acts
  induction acts with
  | nil => intro σ _; exact ⟨σ.te, σ.act, rfl⟩
  | cons c acts ih =>
    intro σ h
    unfold quiet at h
    rw [List.all_cons, Bool.and_eq_true] at h
    obtain ⟨hc, h⟩ := h
    cases ha : M.act[c]? with
    | none => rw [ha] at hc; cases hc
    | some x =>
      rw [ha] at hc
      unfold doActs
      rw [ha]
      simp only [Res.ofOption, Res.ok_bind]
      cases x with
      | mark =>
        obtain ⟨te, act, he⟩ := ih { σ with te := some (σ.p + 1) } h
        exact ⟨te, act, by simp only [doAct, Res.ok_bind]; exact he⟩
      | setAct k =>
        obtain ⟨te, act, he⟩ := ih { σ with act := k } h
        exact ⟨te, act, by simp only [doAct, Res.ok_bind]; exact he⟩
      | _ => cases hc

/-- All letters and digits between two offsets. -/
def AllWord (text : List Byte) (a e : Nat) : Prop := ∀ i, a ≤ i → i < e → ∃ b, text[i]? = some b ∧ isAlnum b = true

/-- What a scan of a text of words is to give: the next word. -/
def Word (text : List Byte) (outSize q : Nat) (res : Res (Option Found)) : Prop :=
  (res = .ok none ∧ NoWord text q text.length) ∨
  ∃ a e, q ≤ a ∧ a < e ∧ e ≤ text.length ∧ NoWord text q a ∧ AllWord text a e ∧ (∀ b, text[e]? = some b → isAlnum b = false) ∧
    res = .ok (some ⟨(a : Nat), (e : Nat), (text.drop a).take (min (e - a) outSize)⟩)

theorem words_spec (C : WordCert M signed entry sep words) (hsep : ∀ b, sep b = true → isAlnum b = false) (ht : ∀ b ∈ text, isAlnum b = true ∨ sep b = true) : ∀ fuel : Nat,
    (∀ (q : Nat) (σ : St), q ≤ text.length → text.length - q + 1 ≤ fuel → σ.cs = entry → σ.p = q → σ.skip = 0 → σ.trunc = 0 → Word text outSize q (loop M signed text outSize fuel σ)) ∧
    (∀ (a p : Nat) (σ : St), a < p → p ≤ text.length → text.length - p + 1 ≤ fuel → σ.cs ∈ words → σ.ts = some (a : Int) → σ.p = p → σ.skip = 0 → σ.trunc = 0 → AllWord text a p →
      ∃ e, a < e ∧ e ≤ text.length ∧ AllWord text a e ∧ (∀ b, text[e]? = some b → isAlnum b = false) ∧
        loop M signed text outSize fuel σ = .ok (some ⟨(a : Nat), (e : Nat), (text.drop a).take (min (e - a) outSize)⟩)) := by
  intro fuel
  induction fuel with
  | zero =>
    exact ⟨fun q σ _ h => by omega, fun a p σ _ _ h => by omega⟩
  | succ fuel ih =>
    -- into a word
    have into : ∀ (a p : Nat) (σ : St) (t : Nat) (acts : List Nat), a ≤ p → p < text.length → text.length - p ≤ fuel → t ∈ words → quiet M acts = true → σ.ts = some (a : Int) → σ.p = p → σ.skip = 0 → σ.trunc = 0 → AllWord text a (p + 1) →
        ∃ e, a < e ∧ e ≤ text.length ∧ AllWord text a e ∧ (∀ b, text[e]? = some b → isAlnum b = false) ∧
        (doActs M { σ with cs := t } acts >>= fun fl => match fl with
          | .ret σ strip => retOf text outSize σ strip
          | .stop => .ok none
          | .cont σ | .again σ => stateActs M M.tables.toState σ >>= fun σ => if σ.cs = 0 then .ok none else loop M signed text outSize fuel { σ with p := σ.p + 1 }) =
            .ok (some ⟨(a : Nat), (e : Nat), (text.drop a).take (min (e - a) outSize)⟩) := by
      intro a p σ t acts hap hlt hf htw hq hts hp hs htr hall
      obtain ⟨te, act, he⟩ := quiet_acts acts { σ with cs := t } hq
      rw [he, Res.ok_bind]
      obtain ⟨w1, w2, w3⟩ := C.words t htw
      dsimp only
      rw [stateActs_none C.none0 w3, Res.ok_bind, if_neg w1]
      exact ih.2 a (p + 1) _ (by omega) (by omega) (by omega) htw hts (by show σ.p + 1 = _; rw [hp]; omega) hs htr hall
    refine ⟨fun q σ hq hf hcs hp hs htr => ?_, fun a p σ hap hle hf hcs hts hp hs htr hall => ?_⟩
    · unfold loop
      obtain ⟨o, c, t1, t2, t3⟩ := C.entryFrom
      rw [stateActs_one (by rw [hcs]; exact t1) t2 t3 (σ' := { σ with ts := some σ.p }) rfl, Res.ok_bind]
      dsimp only
      by_cases hqe : q = text.length
      · rw [show byteAt text σ.p = .ok 0 by rw [hp, hqe]; exact byteAt_end, Res.ok_bind, hcs]
        obtain ⟨t, c', hd, hc'⟩ := C.stop
        rw [hd]
        simp only [Res.ofOption, Res.ok_bind, doActs, hc', doAct]
        exact Or.inl ⟨by rfl, fun i b h1 h2 => by omega⟩
      · have hlt : q < text.length := by omega
        have hb := List.getElem?_eq_getElem hlt
        rw [show byteAt text σ.p = .ok text[q] by rw [hp]; exact byteAt_lt hb, Res.ok_bind, hcs]
        by_cases hal : isAlnum text[q] = true
        · obtain ⟨t, acts, hd, htw, hqu⟩ := C.letter entry text[q] (Or.inl rfl) hal
          rw [hd]
          obtain ⟨e, e1, e2, e3, e4, e5⟩ := into q q { σ with ts := some σ.p } t acts (Nat.le_refl _) hlt (by omega) htw hqu (by show some σ.p = _; rw [hp]) hp hs htr (fun i h1 h2 => by
            have : i = q := by omega
            subst this
            exact ⟨_, hb, hal⟩)
          exact Or.inr ⟨q, e, Nat.le_refl _, e1, e2, fun i b h1 h2 => by omega, e3, e4, e5⟩
        · have hse : sep text[q] = true := (ht _ (List.getElem_mem hlt)).resolve_left hal
          obtain ⟨c', hd, hc'⟩ := C.skip _ hse
          rw [hd]
          simp only [Res.ofOption, Res.ok_bind, doActs, hc', doAct, finish, placed]
          obtain ⟨o', c2, u1, u2, u3⟩ := C.entryTo
          rw [stateActs_one u1 u2 u3 (σ' := ⟨entry, σ.p, none, some (σ.p + 1), σ.act, σ.skip, σ.trunc, σ.top⟩) rfl, Res.ok_bind]
          dsimp only
          rw [if_neg C.entryPos]
          have hrec := ih.1 (q + 1) ⟨entry, σ.p + 1, none, some (σ.p + 1), σ.act, σ.skip, σ.trunc, σ.top⟩ (by omega) (by omega) rfl (by show σ.p + 1 = _; rw [hp]; omega) hs htr
          have more : ∀ e, NoWord text (q + 1) e → NoWord text q e := by
            intro e he i b h1 h2 h3
            by_cases hi : i = q
            · subst hi
              rw [hb] at h3
              cases h3
              exact Bool.eq_false_iff.2 hal
            · exact he i b (by omega) h2 h3
          rcases hrec with ⟨r1, r2⟩ | ⟨a, e, r1, r2, r3, r4, r5⟩
          · exact Or.inl ⟨r1, more _ r2⟩
          · exact Or.inr ⟨a, e, by omega, r2, r3, more _ r4, r5⟩
    · obtain ⟨w1, w2, w3⟩ := C.words σ.cs hcs
      unfold loop
      rw [stateActs_none C.none0 w2, Res.ok_bind]
      -- the end of a word
      have fin : ∀ b : Byte, byteAt text σ.p = .ok b → (sep b = true ∨ b = 0) → (∀ c, text[p]? = some c → isAlnum c = false) →
          (byteAt text σ.p >>= fun b => Res.ofOption (delta M.tables signed σ.cs b) >>= fun d => doActs M { σ with cs := d.1 } d.2 >>= fun fl => match fl with
            | .ret σ strip => retOf text outSize σ strip
            | .stop => .ok none
            | .cont σ | .again σ => stateActs M M.tables.toState σ >>= fun σ => if σ.cs = 0 then .ok none else loop M signed text outSize fuel { σ with p := σ.p + 1 }) =
            .ok (some ⟨(a : Nat), (p : Nat), (text.drop a).take (min (p - a) outSize)⟩) := by
        intro b hb hse _
        rw [hb, Res.ok_bind]
        obtain ⟨t, c', hd, hc'⟩ := C.ends σ.cs b hcs hse
        rw [hd]
        simp only [Res.ofOption, Res.ok_bind, doActs, hc', doAct, finish, placed]
        rw [retOf_ok (σ := ⟨t, σ.p - 1, σ.ts, some σ.p, σ.act, σ.skip, σ.trunc, σ.top⟩) (a := a) (m := p - a) (k := 0) (r := 0) hts (by show some σ.p = _; rw [hp]; congr 1; omega) hs htr (by omega) (by omega)]
        have e1 : a + (p - a) = p := by omega
        simp only [e1, Nat.add_zero, Nat.sub_zero, Bool.false_eq_true, if_false]
      by_cases hqe : p = text.length
      · refine ⟨p, hap, hle, hall, fun b hb => ?_, fin 0 (by rw [hp, hqe]; exact byteAt_end) (Or.inr rfl) (fun b hb => ?_)⟩
        · rw [hqe, List.getElem?_eq_none (Nat.le_refl _)] at hb; cases hb
        · rw [hqe, List.getElem?_eq_none (Nat.le_refl _)] at hb; cases hb
      · have hlt : p < text.length := by omega
        have hb := List.getElem?_eq_getElem hlt
        by_cases hal : isAlnum text[p] = true
        · obtain ⟨t, acts, hd, htw, hqu⟩ := C.letter σ.cs text[p] (Or.inr hcs) hal
          rw [show byteAt text σ.p = .ok text[p] by rw [hp]; exact byteAt_lt hb, Res.ok_bind, hd]
          exact into a p σ t acts (by omega) hlt (by omega) htw hqu hts hp hs htr (fun i h1 h2 => by
            by_cases hi : i = p
            · subst hi
              exact ⟨_, hb, hal⟩
            · exact hall i h1 (by omega))
        · have hse : sep text[p] = true := (ht _ (List.getElem_mem hlt)).resolve_left hal
          have hno : ∀ b, text[p]? = some b → isAlnum b = false := fun b h => by
            rw [hb] at h
            cases h
            exact Bool.eq_false_iff.2 hal
          exact ⟨p, hap, hle, hall, hno, fin text[p] (by rw [hp]; exact byteAt_lt hb) (Or.inl hse) hno⟩

/-- The first step of a scan. -/
theorem scan_start (h1 : ∃ c x d, rowOf M.tables M.start = some ⟨[], [], [c]⟩ ∧ transOf M.tables c = some (x, [d]) ∧ M.act[d]? = some (.call entry))
    (h2 : codesAt M.tables 0 = some []) (h3 : M.tables.fromState[M.start]? = some 0) (h4 : ∃ o c, M.tables.toState[entry]? = some o ∧ codesAt M.tables o = some [c] ∧ M.act[c]? = some .tsNull)
    (h5 : entry ≠ 0) (q : Nat) (hq : q ≤ text.length) : scan M signed text outSize q = loop M signed text outSize ((text.length + 3) * (text.length + 3) - 1) ⟨entry, (q : Int), none, none, 0, 0, 0, 1⟩ := by
  unfold scan
  obtain ⟨c, x, d, h1, h1', h1''⟩ := h1
  have hfuel : (text.length + 3) * (text.length + 3) = ((text.length + 3) * (text.length + 3) - 1) + 1 := by
    have : 1 ≤ (text.length + 3) * (text.length + 3) := Nat.mul_pos (by omega) (by omega)
    omega
  have hread : ∃ b, byteAt text (q : Int) = .ok b := by
    by_cases h : q < text.length
    · exact ⟨_, byteAt_lt (List.getElem?_eq_getElem h)⟩
    · have : q = text.length := by omega
      exact ⟨0, by rw [this]; exact byteAt_end⟩
  obtain ⟨b, hb⟩ := hread
  have hd : delta M.tables signed M.start b = some (x, [d]) := by
    unfold delta
    rw [h1]
    have : cellOf ⟨[], [], [c]⟩ (charOf signed b) = 0 := rfl
    dsimp only
    rw [this]
    exact h1'
  have hacts : doActs M ⟨x, q, none, none, 0, 0, 0, 0⟩ [d] = .ok (.again ⟨entry, (q : Int) - 1, none, none, 0, 0, 0, 1⟩) := by
    unfold doActs
    rw [h1'']
    rfl
  obtain ⟨o, c', t1, t2, t3⟩ := h4
  rw [hfuel]
  conv => lhs; unfold loop
  rw [stateActs_none h2 h3, Res.ok_bind]
  dsimp only
  rw [hb, Res.ok_bind, hd]
  simp only [Res.ofOption, Res.ok_bind]
  rw [hacts, Res.ok_bind]
  dsimp only
  rw [stateActs_one (σ := ⟨entry, (q : Int) - 1, none, none, 0, 0, 0, 1⟩) t1 t2 t3 (σ' := ⟨entry, (q : Int) - 1, none, none, 0, 0, 0, 1⟩) rfl, Res.ok_bind, if_neg h5]
  dsimp only
  rw [← hfuel, show (q : Int) - 1 + 1 = q by omega]

theorem scan_words (C : WordCert M signed entry sep words) (hsep : ∀ b, sep b = true → isAlnum b = false) (ht : ∀ b ∈ text, isAlnum b = true ∨ sep b = true) (q : Nat) (hq : q ≤ text.length) :
    Word text outSize q (scan M signed text outSize q) := by
  rw [scan_start C.start C.none0 C.startFrom C.entryTo C.entryPos q hq]
  refine (words_spec C hsep ht _).1 q _ hq ?_ rfl rfl rfl rfl
  have h2 : (text.length + 3) * (text.length + 3) = text.length * text.length + 6 * text.length + 9 := by grind
  omega

/-- The tokens of a text of words. -/
theorem tokens_words (C : WordCert M signed entry sep words) (hsep : ∀ b, sep b = true → isAlnum b = false) (ht : ∀ b ∈ text, isAlnum b = true ∨ sep b = true) : ∀ (fuel q : Nat), q ≤ text.length → text.length - q + 1 ≤ fuel →
    ((q = 0) ∨ (∀ b, text[q]? = some b → isAlnum b = false)) →
    ∃ spans : List (Nat × Nat), (spans.Pairwise fun a b => a.2 < b.1) ∧ (∀ i j, (i, j) ∈ spans ↔ Run isAlnum text i j ∧ q ≤ i) ∧
      tokens M signed text fuel q = .ok (spans.map fun s => ⟨(between text s.1 s.2).take 254, s.1, s.2⟩) := by
  intro fuel
  induction fuel with
  | zero => intro q _ h; omega
  | succ fuel ih =>
    intro q hq hf hbound
    unfold tokens
    rcases scan_words (outSize := 254) C hsep ht q hq with ⟨h1, h2⟩ | ⟨a, e, h1, h2, h3, h4, h5, h6, h7⟩
    · rw [h1, Res.ok_bind]
      refine ⟨[], List.Pairwise.nil, fun i j => ⟨(fun h => by cases h), fun ⟨hr, hi⟩ => ?_⟩, rfl⟩
      obtain ⟨b, hb, hal⟩ := hr.all i (Nat.le_refl _) hr.some
      have := h2 i b hi (List.getElem?_eq_some_iff.1 hb).1 hb
      rw [this] at hal
      cases hal
    · rw [h7, Res.ok_bind]
      have hlen : ((text.drop a).take (min (e - a) 254)).length ≠ 0 := by
        rw [List.length_take, List.length_drop]; omega
      dsimp only
      rw [if_neg hlen]
      obtain ⟨spans, s1, s2, s3⟩ := ih e h3 (by omega) (Or.inr h6)
      have he : ((e : Nat) : Int).toNat = e := Int.toNat_natCast e
      rw [he, s3, Res.ok_bind]
      have hrun : Run isAlnum text a e := by
        refine ⟨h2, h3, h5, fun c hc hb => ?_, h6⟩
        rcases Nat.lt_or_ge (a - 1) q with hlt | hge
        · -- the word begins where the scan does
          have haq : a = q := by omega
          rcases hbound with h0 | h0
          · omega
          · obtain ⟨b, hb', hal⟩ := h5 a (Nat.le_refl _) h2
            rw [haq] at hb'
            have := h0 b hb'
            rw [this] at hal
            cases hal
        · exact h4 (a - 1) c hge (by omega) hb
      have later : ∀ i j, Run isAlnum text i j → q ≤ i → (i, j) = (a, e) ∨ e ≤ i := by
        intro i j hr hi
        obtain ⟨b, hb, hal⟩ := hr.all i (Nat.le_refl _) hr.some
        have hia : a ≤ i := by
          rcases Nat.lt_or_ge i a with h | h
          · have := h4 i b hi h hb
            rw [this] at hal
            cases hal
          · exact h
        rcases Nat.lt_or_ge i e with hie | hie
        · have hia' : i = a := by
            rcases Nat.lt_or_ge a i with h | h
            · obtain ⟨b', hb', hal'⟩ := h5 (i - 1) (by omega) (by omega)
              have := hr.before b' (by omega) hb'
              rw [this] at hal'
              cases hal'
            · omega
          subst hia'
          have hje : j = e := by
            rcases Nat.lt_trichotomy j e with h | h | h
            · obtain ⟨b', hb', hal'⟩ := h5 j (by have := hr.some; omega) h
              have := hr.after b' hb'
              rw [this] at hal'
              cases hal'
            · exact h
            · obtain ⟨b', hb', hal'⟩ := hr.all e (by omega) h
              have := h6 b' hb'
              rw [this] at hal'
              cases hal'
          rw [hje]
          exact Or.inl rfl
        · exact Or.inr hie
      refine ⟨(a, e) :: spans, List.pairwise_cons.2 ⟨fun x hx => ?_, s1⟩, fun i j => ?_, ?_⟩
      · obtain ⟨hr, hi⟩ := (s2 x.1 x.2).1 hx
        show e < x.1
        rcases Nat.lt_or_ge e x.1 with h | h
        · exact h
        · have hxe : x.1 = e := by omega
          obtain ⟨b, hb, hal⟩ := hr.all x.1 (Nat.le_refl _) hr.some
          rw [hxe] at hb
          have := h6 b hb
          rw [this] at hal
          cases hal
      · rw [List.mem_cons, s2]
        constructor
        · rintro (h | ⟨h, h'⟩)
          · cases h
            exact ⟨hrun, h1⟩
          · exact ⟨h, by omega⟩
        · rintro ⟨h, h'⟩
          rcases later i j h h' with h'' | h''
          · exact Or.inl h''
          · exact Or.inr ⟨h, h''⟩
      · rw [List.map_cons]
        have : (text.drop a).take (min (e - a) 254) = (between text a e).take 254 := by
          unfold between
          rw [List.take_take, Nat.min_comm]
        rw [this]

/-- Tokens with their offsets as numbers. -/
def tripled (toks : List Token) : List (List Byte × Nat × Nat) := toks.map fun t => (t.text, t.start.toNat, t.stop.toNat)

/-- The tokens of any text, up to a match that is left with nothing. -/
theorem tokens_until {ml : Nat} {lim : Lim} {known : Known} (C : Cert M signed entry ml lim known) (ht : InLim lim text) : ∀ (fuel q : Nat), q ≤ text.length → text.length - q + 1 ≤ fuel →
    ∃ toks, tokens M signed text fuel q = .ok toks ∧ CoversUntil text q (tripled toks) := by
  intro fuel
  induction fuel with
  | zero => intro q _ h; omega
  | succ fuel ih =>
    intro q hq hf
    unfold tokens
    rcases scan_good (outSize := 254) C ht q hq with ⟨h1, h2⟩ | ⟨s, e, k, t, strip, h1, h2, h3, h4, h5, h6, h7, h8⟩
    · rw [h1, Res.ok_bind]
      exact ⟨[], rfl, .done h2⟩
    · dsimp only at h8
      rw [h8, Res.ok_bind]
      dsimp only
      have hof : IsTokenOf text s e (if strip = true then ((text.drop (s + k)).take (min (e - s - k - t) 254)).filter (fun b => decide (b ≠ 46)) else (text.drop (s + k)).take (min (e - s - k - t) 254)) := by
        refine ⟨k, t, by omega, h6, ?_⟩
        cases strip with
        | true => exact Or.inr rfl
        | false => exact Or.inl rfl
      generalize (if strip = true then ((text.drop (s + k)).take (min (e - s - k - t) 254)).filter (fun b => decide (b ≠ 46)) else (text.drop (s + k)).take (min (e - s - k - t) 254)) = tok at hof ⊢
      by_cases hz : tok.length = 0
      · rw [if_pos hz]
        rw [List.length_eq_zero_iff.1 hz] at hof
        exact ⟨[], rfl, .empty h1 h2 h3 h4 hof⟩
      · rw [if_neg hz]
        obtain ⟨toks, t1, t2⟩ := ih e h3 (by omega)
        have he : ((e : Nat) : Int).toNat = e := Int.toNat_natCast e
        rw [he, t1, Res.ok_bind]
        refine ⟨_, rfl, ?_⟩
        unfold tripled
        rw [List.map_cons]
        dsimp only
        rw [Int.toNat_natCast, Int.toNat_natCast]
        exact .token h1 h2 h3 h4 hof (fun h => hz (by rw [h]; rfl)) t2

/-- The tokens of a text in which no match is left with nothing. -/
theorem tokens_cover {ml : Nat} {lim : Lim} {known : Known} (C : Cert M signed entry ml lim known) (hml : 1 ≤ ml) (ht : InLim lim text) : ∀ (fuel q : Nat), q ≤ text.length → text.length - q + 1 ≤ fuel →
    ∃ toks, tokens M signed text fuel q = .ok toks ∧ Covers text q (tripled toks) := by
  intro fuel
  induction fuel with
  | zero => intro q _ h; omega
  | succ fuel ih =>
    intro q hq hf
    unfold tokens
    rcases scan_good (outSize := 254) C ht q hq with ⟨h1, h2⟩ | ⟨s, e, k, t, strip, h1, h2, h3, h4, h5, h6, h7, h8⟩
    · rw [h1, Res.ok_bind]
      exact ⟨[], rfl, .done h2⟩
    · dsimp only at h8
      rw [h8, Res.ok_bind]
      dsimp only
      have hpos : 1 ≤ min (e - s - k - t) 254 := by omega
      have hne : (if strip = true then ((text.drop (s + k)).take (min (e - s - k - t) 254)).filter (fun b => decide (b ≠ 46)) else (text.drop (s + k)).take (min (e - s - k - t) 254)) ≠ [] := by
        cases strip with
        | false =>
          rw [if_neg (by decide)]
          intro hx
          have := congrArg List.length hx
          rw [List.length_take, List.length_drop, List.length_nil] at this
          omega
        | true =>
          rw [if_pos rfl]
          obtain ⟨hk, b, hb, hne⟩ := h7 rfl
          intro hx
          have : b ∈ (text.drop (s + k)).take (min (e - s - k - t) 254) := by
            refine List.mem_of_getElem? (i := 0) ?_
            rw [List.getElem?_take, if_pos (by omega), List.getElem?_drop, hk]
            exact hb
          rw [List.filter_eq_nil_iff] at hx
          exact hx b this (decide_eq_true hne)
      have hof : IsTokenOf text s e (if strip = true then ((text.drop (s + k)).take (min (e - s - k - t) 254)).filter (fun b => decide (b ≠ 46)) else (text.drop (s + k)).take (min (e - s - k - t) 254)) := by
        refine ⟨k, t, by omega, h6, ?_⟩
        cases strip with
        | true => exact Or.inr rfl
        | false => exact Or.inl rfl
      rw [if_neg (fun hz => hne (List.length_eq_zero_iff.1 hz))]
      obtain ⟨toks, t1, t2⟩ := ih e h3 (by omega)
      have he : ((e : Nat) : Int).toNat = e := Int.toNat_natCast e
      rw [he, t1, Res.ok_bind]
      refine ⟨_, rfl, ?_⟩
      unfold tripled
      rw [List.map_cons]
      dsimp only
      rw [Int.toNat_natCast, Int.toNat_natCast]
      exact .token h1 h2 h3 h4 hof hne t2

end Ferret.Scan
