import Verif.Lemmas.Scan

/-! Scanners: runs. -/

namespace Ferret.Scan
open Ferret Ferret.Spec

/-- The tables are checked. -/
structure Cert (M : Machine) (signed : Bool) (entry ml : Nat) (lim : Lim) (known : Known) : Prop where
  allows : ∀ b : Byte, b ≠ 0 → lim.byte b.toNat = true → lim.allows (charOf signed b)
  start : ∃ c x d, rowOf M.tables M.start = some ⟨[], [], [c]⟩ ∧ transOf M.tables c = some (x, [d]) ∧ M.act[d]? = some (.call entry)
  none0 : codesAt M.tables 0 = some []
  startFrom : M.tables.fromState[M.start]? = some 0
  entryFrom : ∃ o c, M.tables.fromState[entry]? = some o ∧ codesAt M.tables o = some [c] ∧ M.act[c]? = some .tsHere
  entryTo : ∃ o c, M.tables.toState[entry]? = some o ∧ codesAt M.tables o = some [c] ∧ M.act[c]? = some .tsNull
  entryPos : entry ≠ 0
  entryRow : ∃ r, rowOf M.tables entry = some r ∧ okEntry M known entry ml lim signed r = true
  states : ∀ (cs : Nat) l, known[cs]? = some l → l ≠ [] → (∃ r, rowOf M.tables cs = some r ∧ okState M known entry ml lim signed r l = true) ∧
    M.tables.fromState[cs]? = some 0 ∧ M.tables.toState[cs]? = some 0

/-- A state with a known list is checked. -/
def okOne (M : Machine) (signed : Bool) (entry ml : Nat) (lim : Lim) (known : Known) (cs : Nat) : Bool :=
  match known[cs]? with
  | none => true
  | some [] => true
  | some l => (match rowOf M.tables cs with
    | none => false
    | some r => okState M known entry ml lim signed r l) && decide (M.tables.fromState[cs]? = some 0) && decide (M.tables.toState[cs]? = some 0)

/-- The signedness of char makes no difference in the middle of a match. -/
theorem okOne_signed (M : Machine) (signed signed' : Bool) (entry ml : Nat) (lim : Lim) (known : Known) (cs : Nat) : okOne M signed entry ml lim known cs = okOne M signed' entry ml lim known cs := by
  have h : ∀ s, charOf s 0 = 0 := fun s => by cases s <;> rfl
  unfold okOne okState
  simp only [h]

/-- A state that has one action when it is left or entered. -/
def okOnly (M : Machine) (table : List Nat) (cs : Nat) (a : Act) : Bool :=
  match table[cs]? with
  | none => false
  | some o => match codesAt M.tables o with
    | some [c] => decide (M.act[c]? = some a)
    | _ => false

/-- The state the scanner begins in. -/
def okStart (M : Machine) (entry : Nat) : Bool :=
  match rowOf M.tables M.start with
  | some ⟨[], [], [c]⟩ => match transOf M.tables c with
    | some (_, [d]) => decide (M.act[d]? = some (.call entry))
    | _ => false
  | _ => false

/-- The parts of the tables that are not of single states. -/
def okFrame (M : Machine) (signed : Bool) (entry ml : Nat) (lim : Lim) (known : Known) : Bool :=
  okStart M entry && decide (codesAt M.tables 0 = some []) && decide (M.tables.fromState[M.start]? = some 0) &&
  okOnly M M.tables.fromState entry .tsHere && okOnly M M.tables.toState entry .tsNull && decide (entry ≠ 0) &&
  match rowOf M.tables entry with
  | none => false
  | some r => okEntry M known entry ml lim signed r

theorem okOnly_spec {M : Machine} {table : List Nat} {cs : Nat} {a : Act} (h : okOnly M table cs a = true) : ∃ o c, table[cs]? = some o ∧ codesAt M.tables o = some [c] ∧ M.act[c]? = some a := by
  unfold okOnly at h
  split at h
  · cases h
  · rename_i o ho
    split at h
    · rename_i c hc
      exact ⟨o, c, ho, hc, of_decide_eq_true h⟩
    · cases h

theorem cert_of {M : Machine} {signed : Bool} {entry ml : Nat} {lim : Lim} {known : Known} (h1 : okFrame M signed entry ml lim known = true)
    (h2 : ∀ cs, cs < known.length → okOne M signed entry ml lim known cs = true) (h3 : ∀ b : Byte, b ≠ 0 → lim.byte b.toNat = true → lim.allows (charOf signed b)) :
    Cert M signed entry ml lim known := by
  unfold okFrame at h1
  simp only [Bool.and_eq_true, decide_eq_true_eq] at h1
  obtain ⟨⟨⟨⟨⟨⟨a1, a2⟩, a3⟩, a4⟩, a5⟩, a6⟩, a7⟩ := h1
  refine ⟨h3, ?_, a2, a3, okOnly_spec a4, okOnly_spec a5, a6, ?_, ?_⟩
  · unfold okStart at a1
    split at a1
    · rename_i c hc
      split at a1
      · rename_i x d hd
        exact ⟨c, x, d, hc, hd, of_decide_eq_true a1⟩
      · cases a1
    · cases a1
  · cases hr : rowOf M.tables entry with
    | none => rw [hr] at a7; cases a7
    | some r => rw [hr] at a7; exact ⟨r, rfl, a7⟩
  · intro cs l hl hne
    have := h2 cs (List.getElem?_eq_some_iff.1 hl).1
    unfold okOne at this
    rw [hl] at this
    cases l with
    | nil => exact absurd rfl hne
    | cons x l =>
      simp only [Bool.and_eq_true, decide_eq_true_eq] at this
      obtain ⟨⟨b1, b2⟩, b3⟩ := this
      refine ⟨?_, b2, b3⟩
      cases hr : rowOf M.tables cs with
      | none => rw [hr] at b1; cases b1
      | some r => rw [hr] at b1; exact ⟨r, rfl, b1⟩

/-- What a scan is to give. -/
def Good (text : List Byte) (outSize ml q : Nat) (res : Res (Option Found)) : Prop :=
  (res = .ok none ∧ NoWord text q text.length) ∨
  ∃ (s e k t : Nat) (strip : Bool), q ≤ s ∧ s < e ∧ e ≤ text.length ∧ NoWord text q s ∧ k + t + ml ≤ e - s ∧ t ≤ 2 ∧
    (strip = true → k = 0 ∧ ∃ b, text[s]? = some b ∧ b ≠ 46) ∧
    (let bs := (text.drop (s + k)).take (min (e - s - k - t) outSize);
      res = .ok (some ⟨s, e, if strip then bs.filter (fun b => decide (b ≠ 46)) else bs⟩))

variable {M : Machine} {signed : Bool} {entry ml : Nat} {lim : Lim} {known : Known} {text : List Byte} {outSize : Nat}

theorem byteAt_lt {p : Nat} {b : Byte} (h : text[p]? = some b) : byteAt text (p : Int) = .ok b := by
  have hlt := (List.getElem?_eq_some_iff.1 h).1
  unfold byteAt
  rw [if_neg (by omega), if_neg (by simp only [Int.toNat_natCast]; omega)]
  simp only [Int.toNat_natCast, h, Res.ofOption]

theorem byteAt_end : byteAt text (text.length : Int) = .ok 0 := by
  unfold byteAt
  rw [if_neg (by omega), if_pos (by simp)]

theorem bytesOf_ok : ∀ (n p : Nat), p + n ≤ text.length → bytesOf text n (p : Int) = .ok ((text.drop p).take n) := by
  intro n
  induction n with
  | zero => intro p _; simp [bytesOf]
  | succ n ih =>
    intro p h
    have hlt : p < text.length := by omega
    unfold bytesOf
    rw [byteAt_lt (List.getElem?_eq_getElem hlt), Res.ok_bind]
    have : ((p : Int) + 1) = ((p + 1 : Nat) : Int) := by omega
    rw [this, ih (p + 1) (by omega), Res.ok_bind, List.drop_eq_getElem_cons hlt, List.take_succ_cons]

theorem retOf_ok {σ : St} {strip : Bool} {a m k r : Nat} (h1 : σ.ts = some (a : Int)) (h2 : σ.te = some ((a : Int) + m)) (h3 : σ.skip = k) (h4 : σ.trunc = r) (h5 : a + m ≤ text.length) (h6 : k + r ≤ m) :
    retOf text outSize σ strip = .ok (some ⟨a, (a + m : Nat), (let bs := (text.drop (a + k)).take (min (a + m - a - k - r) outSize);
      if strip then bs.filter (fun b => decide (b ≠ 46)) else bs)⟩) := by
  unfold retOf
  rw [h1, h2, h3, h4]
  simp only [Res.ofOption, Res.ok_bind]
  have hlen : ((a : Int) + m - a - k - r) = ((m - k - r : Nat) : Int) := by omega
  rw [hlen]
  have hn : (if ((m - k - r : Nat) : Int) < 0 then outSize else if ((m - k - r : Nat) : Int) > outSize then outSize else ((m - k - r : Nat) : Int).toNat) = min (a + m - a - k - r) outSize := by
    rw [if_neg (by omega)]
    by_cases h : ((m - k - r : Nat) : Int) > outSize
    · rw [if_pos h]; omega
    · rw [if_neg h]; omega
  rw [hn]
  have hp : ((a : Int) + k) = ((a + k : Nat) : Int) := by omega
  rw [hp, bytesOf_ok _ _ (by omega), Res.ok_bind]
  simp only [Int.natCast_add]

theorem good_skip {q : Nat} {res : Res (Option Found)} {b : Byte} (hb : text[q]? = some b) (hal : isAlnum b = false) (h : Good text outSize ml (q + 1) res) : Good text outSize ml q res := by
  have more : ∀ e, NoWord text (q + 1) e → NoWord text q e := by
    intro e he i c h1 h2 h3
    by_cases hi : i = q
    · rw [hi, hb] at h3
      cases h3
      exact hal
    · exact he i c (by omega) h2 h3
  rcases h with ⟨h1, h2⟩ | ⟨s, e, k, t, strip, h1, h2, h3, h4, h5⟩
  · exact Or.inl ⟨h1, more _ h2⟩
  · exact Or.inr ⟨s, e, k, t, strip, by omega, h2, h3, more _ h4, h5⟩

theorem good_ret {a m k r : Nat} {strip : Bool} {σ : St} (h1 : σ.ts = some (a : Int)) (h2 : σ.te = some ((a : Int) + m)) (h3 : σ.skip = k) (h4 : σ.trunc = r) (h0 : 1 ≤ m) (h5 : a + m ≤ text.length) (h6 : k + r + ml ≤ m) (h7 : r ≤ 2)
    (h8 : strip = true → k = 0 ∧ ∃ b, text[a]? = some b ∧ b ≠ 46) : Good text outSize ml a (retOf text outSize σ strip) :=
  Or.inr ⟨a, a + m, k, r, strip, Nat.le_refl _, by omega, h5, fun i b hi hj => by omega, by omega, h7, h8, retOf_ok h1 h2 h3 h4 h5 (by omega)⟩

theorem stateActs_none {table : List Nat} {σ : St} (h0 : codesAt M.tables 0 = some []) (h : table[σ.cs]? = some 0) : stateActs M table σ = .ok σ := by
  unfold stateActs
  simp only [h, Res.ofOption, Res.ok_bind, h0, doActs]

theorem stateActs_one {table : List Nat} {σ σ' : St} {o c : Nat} {x : Act} (h : table[σ.cs]? = some o) (h1 : codesAt M.tables o = some [c]) (h2 : M.act[c]? = some x) (h3 : doAct M σ x = .ok (.cont σ')) : stateActs M table σ = .ok σ' := by
  unfold stateActs
  simp only [h, Res.ofOption, Res.ok_bind, h1, doActs, h2, h3]

/-- A transition that keeps what is known. -/
theorem okTrans_sound {nul : Bool} {tr : Nat × List Nat} {act : Option Nat} {w : W} {σ : St} {a n m k r : Nat} (hp : a + n ≤ text.length) (hnul : nul = false → a + n < text.length)
    (hok : okTrans M known entry ml nul tr act w = true) (hm : Mid text a n m k r σ w) (hact : ∀ x, act = some x → σ.act = x) :
    ∃ fl, doActs M { σ with cs := tr.1 } tr.2 = .ok fl ∧
      ((fl = .stop ∧ n = 0 ∧ nul = true) ∨ (∃ σ' strip, fl = .ret σ' strip ∧ Good text outSize ml a (retOf text outSize σ' strip)) ∨
       (∃ σ' b, fl = .cont σ' ∧ σ'.cs = entry ∧ σ'.p = a ∧ σ'.skip = 0 ∧ σ'.trunc = 0 ∧ text[a]? = some b ∧ isAlnum b = false) ∨
       (∃ σ' w' l m' k' r', fl = .cont σ' ∧ nul = false ∧ σ'.cs ≠ 0 ∧ known[σ'.cs]? = some l ∧ (σ'.act, w') ∈ l ∧ Mid text a (n + 1) m' k' r' { σ' with p := σ'.p + 1 } w')) := by
  unfold okTrans at hok
  have hm' : Mid text a n m k r { σ with cs := tr.1 } w := ⟨hm.ts, hm.p, hm.skip, hm.trunc, hm.dn, hm.R, hm.te, hm.dm, hm.first, hm.nEq, hm.m1, hm.kz, hm.pos⟩
  cases ha : aActs M ml nul tr.2 act w with
  | none => rw [ha] at hok; cases hok
  | some o =>
    rw [ha] at hok
    obtain ⟨fl, h1, h2⟩ := aActs_sound hp hnul tr.2 act w { σ with cs := tr.1 } m k r o hm' hact ha
    refine ⟨fl, h1, ?_⟩
    cases o with
    | stop =>
      obtain ⟨rfl, h3⟩ := h2
      refine Or.inl ⟨rfl, h3, ?_⟩
      -- only at the end of the text is there a stop
      have : ∀ (cs : List Nat) (act : Option Nat) (w : W), aActs M ml nul cs act w = some .stop → nul = true := by
        intro cs
        have fin : ∀ (y : Act) (w : W), aFinish ml nul w y ≠ some .stop := by
          intro y w hy
          cases y <;> simp only [aFinish] at hy <;> first | cases hy | (split at hy <;> cases hy)
        induction cs with
        | nil => intro act w h; unfold aActs at h; cases nul with
          | true => rfl
          | false => cases h
        | cons c cs ih =>
          intro act w h
          unfold aActs at h
          cases hc : M.act[c]? with
          | none => rw [hc] at h; cases h
          | some x =>
            rw [hc] at h
            cases x with
            | call _ => cases h
            | tsNull => cases h
            | tsHere => cases h
            | skip => exact ih _ _ h
            | trunc => exact ih _ _ h
            | setAct k => exact ih _ _ h
            | mark =>
              dsimp only at h
              split at h
              · cases h
              · exact ih _ _ h
            | stop =>
              dsimp only at h
              split at h
              case isTrue hx => simp only [Bool.and_eq_true] at hx; exact hx.1
              case isFalse => cases h
            | switch =>
              dsimp only at h
              split at h
              · obtain ⟨y, -, hy⟩ := Option.bind_eq_some_iff.1 h
                exact absurd hy (fin _ _)
              · cases h
            | emit pl tr' strip =>
              dsimp only at h
              split at h
              · exact absurd h (fin _ _)
              · cases h
            | pass pl =>
              dsimp only at h
              split at h
              · exact absurd h (fin _ _)
              · cases h
      exact this _ _ _ ha
    | ret =>
      obtain ⟨σ', strip, m', k', r', rfl, g1, g2, g3, g4, g5, g6, g7, g8, g9⟩ := h2
      exact Or.inr (Or.inl ⟨σ', strip, rfl, good_ret g1 g2 g3 g4 g5 g6 g7 g8 g9⟩)
    | pass =>
      obtain ⟨σ', b, rfl, g1, g2, g3, g4, g5, g6⟩ := h2
      exact Or.inr (Or.inr (Or.inl ⟨σ', b, rfl, g4.trans (of_decide_eq_true hok), g1, g2, g3, g5, g6⟩))
    | next act' w' =>
      obtain ⟨σ', m', k', r', rfl, g1, g2, g3⟩ := h2
      simp only [Bool.and_eq_true, decide_eq_true_eq] at hok
      obtain ⟨⟨⟨h0, -⟩, -⟩, hk⟩ := hok
      cases hl : known[tr.1]? with
      | none => rw [hl] at hk; cases hk
      | some l =>
        rw [hl] at hk
        simp only [List.any_eq_true, Bool.and_eq_true, decide_eq_true_eq] at hk
        obtain ⟨x, hx1, hx2, hx3⟩ := hk
        have hg3 : σ'.cs = tr.1 := g3
        refine Or.inr (Or.inr (Or.inr ⟨σ', x.2, l, m', k', r', rfl, ?_, by rw [hg3]; exact h0, by rw [hg3]; exact hl, ?_, g1.stepped.mono hx3⟩))
        · cases hn : nul with
          | false => rfl
          | true =>
            have : ∀ (cs : List Nat) (act : Option Nat) (w : W) y z, aActs M ml true cs act w ≠ some (.next y z) := by
              intro cs
              have fin : ∀ (act : Act) (w : W) y z, aFinish ml true w act ≠ some (.next y z) := by
                intro act w y z hy
                cases act <;> simp only [aFinish] at hy <;> first | cases hy | (split at hy <;> cases hy)
              induction cs with
              | nil => intro act w y z h; cases h
              | cons c cs ih =>
                intro act w y z h
                unfold aActs at h
                cases hc : M.act[c]? with
                | none => rw [hc] at h; cases h
                | some x =>
                  rw [hc] at h
                  cases x with
                  | call _ => cases h
                  | tsNull => cases h
                  | tsHere => cases h
                  | skip => exact ih _ _ _ _ h
                  | trunc => exact ih _ _ _ _ h
                  | setAct k => exact ih _ _ _ _ h
                  | mark => cases h
                  | stop =>
                    dsimp only at h
                    split at h <;> cases h
                  | switch =>
                    dsimp only at h
                    split at h
                    · obtain ⟨y', -, hy⟩ := Option.bind_eq_some_iff.1 h
                      exact fin _ _ _ _ hy
                    · cases h
                  | emit pl tr' strip =>
                    dsimp only at h
                    split at h
                    · exact fin _ _ _ _ h
                    · cases h
                  | pass pl =>
                    dsimp only at h
                    split at h
                    · exact fin _ _ _ _ h
                    · cases h
            rw [hn] at ha
            exact absurd ha (this _ _ _ _ _)
        · rw [g2 x.1 hx2]
          exact hx1

/-- The most steps from between matches at `q`. -/
def need (L q : Nat) : Nat := (L - q) * (L + 2) + 1

theorem need_succ {L q : Nat} (h : q < L) : need L q = need L (q + 1) + (L + 2) := by
  unfold need
  have : L - q = (L - (q + 1)) + 1 := by omega
  rw [this, Nat.succ_mul]
  omega

/-- The bytes of the text are among those allowed. -/
def InLim (lim : Lim) (text : List Byte) : Prop := ∀ b ∈ text, b ≠ 0 ∧ lim.byte b.toNat = true

theorem run_spec (C : Cert M signed entry ml lim known) (ht : InLim lim text) : ∀ fuel : Nat,
    (∀ (q : Nat) (σ : St), q ≤ text.length → need text.length q ≤ fuel → σ.cs = entry → σ.p = q → σ.skip = 0 → σ.trunc = 0 → Good text outSize ml q (loop M signed text outSize fuel σ)) ∧
    (∀ (a n m k r : Nat) (σ : St) (w : W) (l : List (Nat × W)), a < text.length → a + n ≤ text.length → (text.length - (a + n)) + 1 + need text.length (a + 1) ≤ fuel → known[σ.cs]? = some l → (σ.act, w) ∈ l → Mid text a n m k r σ w →
      Good text outSize ml a (loop M signed text outSize fuel σ)) := by
  intro fuel
  induction fuel with
  | zero =>
    refine ⟨fun q σ _ h => ?_, fun a n m k r σ w l _ _ h => ?_⟩
    · unfold need at h; omega
    · omega
  | succ fuel ih =>
    -- back between matches
    have back : ∀ (σ : St) (a : Nat), a < text.length → need text.length (a + 1) ≤ fuel → σ.cs = entry → σ.p = a → σ.skip = 0 → σ.trunc = 0 → (∃ b, text[a]? = some b ∧ isAlnum b = false) →
        Good text outSize ml a (stateActs M M.tables.toState σ >>= fun σ => if σ.cs = 0 then .ok none else loop M signed text outSize fuel { σ with p := σ.p + 1 }) := by
      intro σ a hlt hf hcs hp hs htr ⟨b, hb, hal⟩
      obtain ⟨o, c, t1, t2, t3⟩ := C.entryTo
      rw [stateActs_one (by rw [hcs]; exact t1) t2 t3 (σ' := { σ with ts := none }) rfl, Res.ok_bind]
      dsimp only
      rw [if_neg (by rw [hcs]; exact C.entryPos)]
      exact good_skip hb hal (ih.1 (a + 1) _ (by omega) hf hcs (by show σ.p + 1 = _; rw [hp]; omega) hs htr)
    -- a transition
    have step : ∀ (σ : St) (a n m k r : Nat) (w : W) (act : Option Nat) (b : Byte) (tr : Nat × List Nat), a + n ≤ text.length → a < text.length ∨ n = 0 → (a + n < text.length → text[a + n]? = some b) → (a + n = text.length → b = 0) →
        (a < text.length → (text.length - (a + n)) + need text.length (a + 1) ≤ fuel) →
        okTrans M known entry ml (decide (b = 0)) tr act w = true → Mid text a n m k r σ w → (∀ x, act = some x → σ.act = x) →
        Good text outSize ml a (doActs M { σ with cs := tr.1 } tr.2 >>= fun fl => match fl with
          | .ret σ strip => retOf text outSize σ strip
          | .stop => .ok none
          | .cont σ | .again σ => stateActs M M.tables.toState σ >>= fun σ => if σ.cs = 0 then .ok none else loop M signed text outSize fuel { σ with p := σ.p + 1 }) := by
      intro σ a n m k r w act b tr hle hlt hbt hbe hf hok hm hact
      have hnul : decide (b = 0) = false → a + n < text.length := by
        intro hx
        have : b ≠ 0 := of_decide_eq_false hx
        exact Nat.lt_of_le_of_ne hle fun h => this (hbe h)
      obtain ⟨fl, h1, h2⟩ := okTrans_sound (outSize := outSize) hle hnul hok hm hact
      rw [h1, Res.ok_bind]
      rcases h2 with ⟨rfl, hn, hz⟩ | ⟨σ', strip, rfl, hg⟩ | ⟨σ', b', rfl, g1, g2, g3, g4, g5, g6⟩ | ⟨σ', w', l, m', k', r', rfl, hz, g1, g2, g3, g4⟩
      · refine Or.inl ⟨rfl, ?_⟩
        have hb0 : b = 0 := of_decide_eq_true hz
        have hend : a = text.length := by
          apply Classical.byContradiction
          intro hc
          have h3 := hbt (by omega)
          have := (ht b (List.mem_of_getElem? h3)).1
          exact this hb0
        intro i c hi hj
        omega
      · exact hg
      · have hlt' : a < text.length := (List.getElem?_eq_some_iff.1 g5).1
        have := hf hlt'
        exact back σ' a hlt' (by omega) g1 g2 g3 g4 ⟨b', g5, g6⟩
      · have hlt2 := hnul hz
        have hlt' : a < text.length := by omega
        have := hf hlt'
        obtain ⟨-, -, hto⟩ := C.states σ'.cs l g2 (List.ne_nil_of_mem g3)
        dsimp only
        rw [stateActs_none C.none0 hto, Res.ok_bind, if_neg g1]
        exact ih.2 a (n + 1) m' k' r' _ w' l hlt' (by omega) (by omega) g2 g3 g4
    have cell : ∀ (r : Row) (c : Nat), r.cells.length = r.keys.length + r.ranges.length + 1 → c ≤ r.keys.length + r.ranges.length → ∃ t, r.cells[c]? = some t :=
      fun r c h1 h2 => ⟨_, List.getElem?_eq_getElem (by omega)⟩
    -- the byte that is read
    have reads : ∀ p : Nat, p ≤ text.length → ∃ b, byteAt text (p : Int) = .ok b ∧ (p < text.length → text[p]? = some b) ∧ (p = text.length → b = 0) := by
      intro p hp
      by_cases h : p < text.length
      · exact ⟨text[p], byteAt_lt (List.getElem?_eq_getElem h), fun _ => List.getElem?_eq_getElem h, fun h' => by omega⟩
      · have : p = text.length := by omega
        exact ⟨0, by rw [this]; exact byteAt_end, fun h' => absurd h' h, fun _ => rfl⟩
    refine ⟨fun q σ hq hf hcs hp hs htr => ?_, fun a n m k r σ w l hlt hle hf hl hmem hm => ?_⟩
    · unfold loop
      obtain ⟨o, c, t1, t2, t3⟩ := C.entryFrom
      rw [stateActs_one (by rw [hcs]; exact t1) t2 t3 (σ' := { σ with ts := some σ.p }) rfl, Res.ok_bind]
      obtain ⟨b, hb1, hb2, hb3⟩ := reads q hq
      dsimp only
      rw [hp, hb1, Res.ok_bind, hcs]
      obtain ⟨row, hr1, hr2⟩ := C.entryRow
      unfold okEntry at hr2
      simp only [Bool.and_eq_true, decide_eq_true_eq, List.all_eq_true, List.mem_range] at hr2
      obtain ⟨hlen, hall⟩ := hr2
      have hbb := hall b.toNat (UInt8.toNat_lt b)
      rw [UInt8.ofNat_toNat] at hbb
      obtain ⟨t, hcell⟩ := cell row _ hlen (cellOf_lt row (charOf signed b))
      have hz : decide (b.toNat = 0) = decide (b = 0) := by
        by_cases h : b = 0
        · rw [h]; rfl
        · have : b.toNat ≠ 0 := fun hc => h (UInt8.toNat_inj.1 hc)
          simp [h, this]
      rw [hcell, hz] at hbb
      dsimp only at hbb
      have hnot : (decide (b.toNat ≠ 0) && !lim.byte b.toNat) = false := by
        by_cases hqe : q = text.length
        · rw [hb3 hqe]; rfl
        · have := (ht b (List.mem_of_getElem? (hb2 (by omega)))).2
          rw [this]; simp
      rw [hnot, Bool.false_or] at hbb
      cases htr' : transOf M.tables t with
      | none => rw [htr'] at hbb; cases hbb
      | some tr =>
        rw [htr'] at hbb
        have hd : delta M.tables signed entry b = some tr := by
          unfold delta
          rw [hr1]
          dsimp only
          rw [hcell]
          exact htr'
        rw [hd]
        simp only [Res.ofOption, Res.ok_bind]
        refine step { cs := σ.cs, p := (q : Int), ts := some (q : Int), te := σ.te, act := σ.act, skip := σ.skip, trunc := σ.trunc, top := σ.top } q 0 0 0 0 (w0 b) none b tr (by omega) (Or.inr rfl) hb2 hb3 ?_ hbb ?_ (fun x hx => by cases hx)
        · intro hlt
          rw [need_succ hlt] at hf
          omega
        · refine ⟨rfl, by show (q : Int) = _; omega, hs, htr, Nat.le_refl _, Nat.le_refl _, (fun h => by cases h), (fun d hd => by cases hd), (fun c hc => ?_), (fun v hv => by cases hv; rfl), (fun h => by cases h), (fun _ => ⟨rfl, rfl⟩), (fun h => absurd rfl h)⟩
          unfold w0 at hc
          dsimp only at hc
          by_cases hqe : q = text.length
          · rw [if_pos (hb3 hqe)] at hc; cases hc
          · have h3 := hb2 (by omega)
            rw [if_neg (ht b (List.mem_of_getElem? h3)).1] at hc
            cases hc
            exact ⟨b, h3, rfl⟩
    · obtain ⟨⟨row, hr1, hr2⟩, hfrom, -⟩ := C.states σ.cs l hl (List.ne_nil_of_mem hmem)
      unfold loop
      rw [stateActs_none C.none0 hfrom, Res.ok_bind]
      obtain ⟨b, hb1, hb2, hb3⟩ := reads (a + n) hle
      have hpn : σ.p = ((a + n : Nat) : Int) := by rw [hm.p]; omega
      rw [show byteAt text σ.p = .ok b by rw [hpn]; exact hb1, Res.ok_bind]
      unfold okState at hr2
      simp only [Bool.and_eq_true, decide_eq_true_eq] at hr2
      obtain ⟨⟨hlen, hall⟩, hnul⟩ := hr2
      obtain ⟨t, hcell⟩ := cell row _ hlen (cellOf_lt row (charOf signed b))
      have key : ∃ tr, transOf M.tables t = some tr ∧ okTrans M known entry ml (decide (b = 0)) tr (some σ.act) w = true := by
        by_cases hend : a + n = text.length
        · have hb0 := hb3 hend
          subst hb0
          rw [hcell] at hnul
          dsimp only at hnul
          cases htr' : transOf M.tables t with
          | none => rw [htr'] at hnul; cases hnul
          | some tr =>
            rw [htr'] at hnul
            exact ⟨tr, rfl, (List.all_eq_true.1 hnul) _ hmem⟩
        · have h3 := hb2 (by omega)
          obtain ⟨hb0, hlim⟩ := ht b (List.mem_of_getElem? h3)
          have hin := cellOf_mem row lim (charOf signed b) (C.allows b hb0 hlim) t hcell
          have := (List.all_eq_true.1 hall) t hin
          cases htr' : transOf M.tables t with
          | none => rw [htr'] at this; cases this
          | some tr =>
            rw [htr'] at this
            refine ⟨tr, rfl, ?_⟩
            rw [decide_eq_false hb0]
            exact (List.all_eq_true.1 this) _ hmem
      obtain ⟨tr, htr', hok⟩ := key
      have hd : delta M.tables signed σ.cs b = some tr := by
        unfold delta
        rw [hr1]
        dsimp only
        rw [hcell]
        exact htr'
      rw [hd]
      simp only [Res.ofOption, Res.ok_bind]
      exact step σ a n m k r w (some σ.act) b tr hle (Or.inl hlt) hb2 hb3 (fun _ => by omega) hok hm (fun x hx => Option.some.inj hx)

/-- A scan. -/
theorem scan_good (C : Cert M signed entry ml lim known) (ht : InLim lim text) (q : Nat) (hq : q ≤ text.length) : Good text outSize ml q (scan M signed text outSize q) := by
  unfold scan
  obtain ⟨c, x, d, h1, h2, h3⟩ := C.start
  have hfuel : (text.length + 3) * (text.length + 3) = ((text.length + 3) * (text.length + 3) - 1) + 1 := by
    have : 1 ≤ (text.length + 3) * (text.length + 3) := Nat.mul_pos (by omega) (by omega)
    omega
  rw [hfuel]
  unfold loop
  rw [stateActs_none C.none0 C.startFrom, Res.ok_bind]
  dsimp only
  have hread : ∃ b, byteAt text (q : Int) = .ok b := by
    by_cases h : q < text.length
    · exact ⟨_, byteAt_lt (List.getElem?_eq_getElem h)⟩
    · have : q = text.length := by omega
      exact ⟨0, by rw [this]; exact byteAt_end⟩
  obtain ⟨b, hb⟩ := hread
  rw [hb, Res.ok_bind]
  have hd : delta M.tables signed M.start b = some (x, [d]) := by
    unfold delta
    rw [h1]
    have : cellOf ⟨[], [], [c]⟩ (charOf signed b) = 0 := rfl
    dsimp only
    rw [this]
    exact h2
  rw [hd]
  simp only [Res.ofOption, Res.ok_bind]
  have hacts : doActs M ⟨x, q, none, none, 0, 0, 0, 0⟩ [d] = .ok (.again ⟨entry, (q : Int) - 1, none, none, 0, 0, 0, 1⟩) := by
    unfold doActs
    rw [h3]
    rfl
  rw [hacts, Res.ok_bind]
  obtain ⟨o, c', t1, t2, t3⟩ := C.entryTo
  dsimp only
  rw [stateActs_one (σ := ⟨entry, (q : Int) - 1, none, none, 0, 0, 0, 1⟩) t1 t2 t3 (σ' := ⟨entry, (q : Int) - 1, none, none, 0, 0, 0, 1⟩) rfl, Res.ok_bind, if_neg C.entryPos]
  refine (run_spec C ht _).1 q _ hq ?_ rfl ?_ rfl rfl
  · unfold need
    have h1 : (text.length - q) * (text.length + 2) ≤ text.length * (text.length + 2) := Nat.mul_le_mul_right _ (by omega)
    have h2 : (text.length + 3) * (text.length + 3) = text.length * (text.length + 2) + 4 * text.length + 9 := by grind
    omega
  · show (q : Int) - 1 + 1 = q
    omega

end Ferret.Scan
