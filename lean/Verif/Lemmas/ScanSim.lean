import Verif.Lemmas.ScanWords

/-! Scanners: two machines that do the same. -/

namespace Ferret.Scan
open Ferret Ferret.Spec

/-- The actions of a transition without those that set the pattern, the case of the pattern for `switch`, and the
pattern after them. -/
def resolve (M : Machine) : Option Nat → List Nat → Option (List Act × Option Nat)
  | act, [] => some ([], act)
  | act, c :: cs => match M.act[c]? with
    | some (.setAct k) => resolve M (some k) cs
    | some .switch => if cs = [] then (match act.bind M.case with
      | some (.emit pl tr strip) => some ([.emit pl tr strip], act)
      | some (.pass pl) => some ([.pass pl], act)
      | _ => none) else none
    | some (.call _) => none
    | some a => (resolve M act cs).map fun r => (a :: r.1, r.2)
    | none => none

/-- Actions that do not depend on the machine. -/
def plainAct (σ : St) : Act → Res Flow
  | .skip => Res.ofOption σ.ts >>= fun ts => .ok (.cont { σ with skip := σ.p - ts })
  | .trunc => .ok (.cont { σ with trunc := 1 })
  | .tsNull => .ok (.cont { σ with ts := none })
  | .tsHere => .ok (.cont { σ with ts := some σ.p })
  | .mark => .ok (.cont { σ with te := some (σ.p + 1) })
  | .stop => .ok .stop
  | a => finish σ a

def plainActs : St → List Act → Res Flow
  | σ, [] => .ok (.cont σ)
  | σ, a :: as => plainAct σ a >>= fun fl =>
    match fl with
    | .cont σ => plainActs σ as
    | fl => .ok fl

/-- The variables other than the state and the pattern. -/
def St.core (σ : St) : St := { σ with cs := 0, act := 0 }

/-- The same flow, whatever state and pattern; if it goes on, the state and the pattern are as said. -/
inductive SameFlow (cs : Nat) (act : Option Nat) : Flow → Flow → Prop where
  | cont {σ τ : St} : σ.core = τ.core → σ.cs = cs → (∀ x, act = some x → σ.act = x) → SameFlow cs act (.cont σ) (.cont τ)
  | ret {σ τ : St} {strip : Bool} : σ.core = τ.core → SameFlow cs act (.ret σ strip) (.ret τ strip)
  | stop : SameFlow cs act .stop .stop

/-- The same result. -/
inductive SameRes (cs : Nat) (act : Option Nat) : Res Flow → Res Flow → Prop where
  | ok {a b : Flow} : SameFlow cs act a b → SameRes cs act (.ok a) (.ok b)
  | ub : SameRes cs act .ub .ub

theorem St.ext_core {σ τ : St} (h : σ.core = τ.core) : σ.p = τ.p ∧ σ.ts = τ.ts ∧ σ.te = τ.te ∧ σ.skip = τ.skip ∧ σ.trunc = τ.trunc ∧ σ.top = τ.top := by
  unfold St.core at h
  injection h with h1 h2 h3 h4 h5 h6 h7 h8
  exact ⟨h2, h3, h4, h6, h7, h8⟩

theorem St.core_of {σ τ : St} (h1 : σ.p = τ.p) (h2 : σ.ts = τ.ts) (h3 : σ.te = τ.te) (h4 : σ.skip = τ.skip) (h5 : σ.trunc = τ.trunc) (h6 : σ.top = τ.top) : σ.core = τ.core := by
  unfold St.core
  simp only [h1, h2, h3, h4, h5, h6]

theorem finish_same {σ τ : St} (h : σ.core = τ.core) (x : Act) (act : Option Nat) (hact : ∀ y, act = some y → σ.act = y) : SameRes σ.cs act (finish σ x) (finish τ x) := by
  obtain ⟨e1, e2, e3, e4, e5, e6⟩ := St.ext_core h
  cases x with
  | emit pl tr strip =>
    simp only [finish]
    cases pl with
    | next =>
      simp only [placed, Res.ok_bind]
      refine .ok (.ret ?_)
      cases tr <;> refine St.core_of ?_ ?_ ?_ ?_ ?_ ?_ <;> simp only [e1, e2, e3, e4, e5, e6]
    | here =>
      simp only [placed, Res.ok_bind]
      refine .ok (.ret ?_)
      cases tr <;> refine St.core_of ?_ ?_ ?_ ?_ ?_ ?_ <;> simp only [e1, e2, e3, e4, e5, e6]
    | back =>
      simp only [placed, e3]
      cases hte : τ.te with
      | none => exact .ub
      | some te =>
        simp only [Res.ofOption, Res.ok_bind]
        refine .ok (.ret ?_)
        cases tr <;> refine St.core_of ?_ ?_ ?_ ?_ ?_ ?_ <;> simp only [e1, e2, e3, e4, e5, e6]
  | pass pl =>
    simp only [finish]
    cases pl with
    | next => exact .ok (.cont (St.core_of (by simp only [e1]) e2 (by simp only [e1]) e4 e5 e6) rfl hact)
    | here => exact .ok (.cont (St.core_of (by simp only [e1]) e2 (by simp only [e1]) e4 e5 e6) rfl hact)
    | back =>
      simp only [placed, e3]
      cases hte : τ.te with
      | none => exact .ub
      | some te => exact .ok (.cont (St.core_of rfl e2 rfl e4 e5 e6) rfl hact)
  | _ => exact .ok (.cont h rfl hact)

/-- An action that is not for the pattern. -/
theorem plain_same {σ τ : St} (h : σ.core = τ.core) (x : Act) (act : Option Nat) (hact : ∀ y, act = some y → σ.act = y) : SameRes σ.cs act (plainAct σ x) (plainAct τ x) := by
  obtain ⟨e1, e2, e3, e4, e5, e6⟩ := St.ext_core h
  cases x with
  | skip =>
    simp only [plainAct, e2]
    cases hts : τ.ts with
    | none => exact .ub
    | some ts => exact .ok (.cont (St.core_of e1 rfl e3 (by simp only [e1]) e5 e6) rfl hact)
  | trunc => exact .ok (.cont (St.core_of e1 e2 e3 e4 rfl e6) rfl hact)
  | tsNull => exact .ok (.cont (St.core_of e1 rfl e3 e4 e5 e6) rfl hact)
  | tsHere => exact .ok (.cont (St.core_of e1 (by simp only [e1]) e3 e4 e5 e6) rfl hact)
  | mark => exact .ok (.cont (St.core_of e1 e2 (by simp only [e1]) e4 e5 e6) rfl hact)
  | stop => exact .ok .stop
  | call c => exact .ok (.cont h rfl hact)
  | setAct k => exact .ok (.cont h rfl hact)
  | switch => exact .ok (.cont h rfl hact)
  | emit pl tr strip => exact finish_same h (.emit pl tr strip) act hact
  | pass pl => exact finish_same h (.pass pl) act hact

theorem doActs_resolve {M : Machine} : ∀ (cs : List Nat) (act : Option Nat) (σ τ : St) (l : List Act) (act' : Option Nat), resolve M act cs = some (l, act') → σ.core = τ.core → (∀ x, act = some x → σ.act = x) →
    SameRes σ.cs act' (doActs M σ cs) (plainActs τ l) := by
  intro cs
  induction cs with
  | nil =>
    intro act σ τ l act' h hc ha
    unfold resolve at h
    cases h
    exact .ok (.cont hc rfl ha)
  | cons c cs ih =>
    intro act σ τ l act' h hc ha
    unfold resolve at h
    cases hx : M.act[c]? with
    | none => rw [hx] at h; cases h
    | some x =>
      rw [hx] at h
      unfold doActs
      rw [hx]
      simp only [Res.ofOption, Res.ok_bind]
      -- an action that is kept
      have kept : doAct M σ x = plainAct σ x → (resolve M act cs).map (fun r => (x :: r.1, r.2)) = some (l, act') →
          SameRes σ.cs act' (doAct M σ x >>= fun fl => match fl with
            | .cont σ => doActs M σ cs
            | fl => .ok fl) (plainActs τ l) := by
        intro he hr
        obtain ⟨r, hr1, hr2⟩ := Option.map_eq_some_iff.1 hr
        cases hr2
        rw [he]
        unfold plainActs
        have hs := plain_same hc x act ha
        revert hs
        generalize plainAct σ x = A
        generalize plainAct τ x = B
        intro hs
        cases hs with
        | ub => exact .ub
        | ok hf =>
          cases hf with
          | cont h1 h2 h3 =>
            simp only [Res.ok_bind]
            rw [← h2]
            exact ih act _ _ r.1 r.2 hr1 h1 h3
          | ret h1 => exact .ok (.ret h1)
          | stop => exact .ok .stop
      cases x with
      | setAct k =>
        simp only [doAct, Res.ok_bind]
        exact ih (some k) { σ with act := k } τ l act' h hc (fun x hx => Option.some.inj hx)
      | switch =>
        dsimp only at h
        split at h
        case isFalse => cases h
        case isTrue hcs =>
          subst hcs
          cases act with
          | none => cases h
          | some k =>
            rw [Option.bind_some] at h
            have last : ∀ y, M.case k = some y → plainAct τ y = finish τ y → some ([y], some k) = some (l, act') →
                SameRes σ.cs act' (doAct M σ .switch >>= fun fl => match fl with
                  | .cont σ => doActs M σ []
                  | fl => .ok fl) (plainActs τ l) := by
              intro y hy hp he
              cases he
              simp only [doAct, ha k rfl, hy]
              unfold plainActs
              rw [hp]
              have hs := finish_same hc y (some k) ha
              revert hs
              generalize finish σ y = A
              generalize finish τ y = B
              intro hs
              cases hs with
              | ub => exact .ub
              | ok hf =>
                cases hf with
                | cont h1 h2 h3 => exact .ok (.cont h1 h2 h3)
                | ret h1 => exact .ok (.ret h1)
                | stop => exact .ok .stop
            split at h
            · rename_i pl tr strip hcase
              exact last _ hcase rfl h
            · rename_i pl hcase
              exact last _ hcase rfl h
            · cases h
      | call c' => cases h
      | skip => exact kept rfl h
      | trunc => exact kept rfl h
      | tsNull => exact kept rfl h
      | tsHere => exact kept rfl h
      | mark => exact kept rfl h
      | stop => exact kept rfl h
      | emit pl tr strip => exact kept rfl h
      | pass pl => exact kept rfl h

/-- The rows of two states, and the pairs of cells for the characters of a text. -/
structure Both where
  r : Row
  r' : Row
  cells : List (Nat × Nat)

/-- For each state of the first machine the state of the second, the pairs of patterns, and the rows. -/
abbrev Sim := List (Nat × List (Nat × Nat) × Both)

/-- No more actions, and no next state. -/
def ending : List Act → Bool
  | [] => false
  | [.emit _ _ _] => true
  | [.stop] => true
  | _ :: l => ending l

/-- Two transitions do the same. -/
def simTrans (M N : Machine) (sim : Sim) (e f : Nat) (t u : Nat × List Nat) (a b : Option Nat) : Bool :=
  match resolve M a t.2, resolve N b u.2 with
  | some (l, a'), some (l', b') => decide (l = l') && (ending l || (decide (t.1 = e) && decide (u.1 = f)) || (decide (t.1 ≠ 0) && decide (u.1 ≠ 0) && match sim[t.1]? with
    | some (v, prs, _) => decide (v = u.1) && (match a', b' with
      | some x, some y => prs.contains (x, y)
      | _, _ => false)
    | none => false))
  | _, _ => false

/-- The pairs of cells for ASCII characters, for the end of the text, and for characters that are negative. -/
def cellPairs (r r' : Row) (l : List (Nat × Nat)) : Bool :=
  let ok := fun c : Int => match r.cells[cellOf r c]?, r'.cells[cellOf r' c]? with
    | some x, some y => l.contains (x, y)
    | _, _ => false
  ((List.range 128).all fun i => ok (i : Int)) && ok (-1)

/-- All transitions of two states. -/
def simRows (M N : Machine) (l : Both) (s u : Nat) (P : Nat × List Nat → Nat × List Nat → Bool) : Bool :=
  decide (rowOf M.tables s = some l.r) && decide (rowOf N.tables u = some l.r') && cellPairs l.r l.r' l.cells && l.cells.all fun x => match transOf M.tables x.1, transOf N.tables x.2 with
    | some t, some t' => P t t'
    | _, _ => false

/-- A state in the middle of a match. -/
def simState (M N : Machine) (sim : Sim) (e f s : Nat) : Bool :=
  match sim[s]? with
  | none => true
  | some (_, [], _) => true
  | some (u, prs, l) => decide (M.tables.fromState[s]? = some 0) && decide (N.tables.fromState[u]? = some 0) && decide (M.tables.toState[s]? = some 0) && decide (N.tables.toState[u]? = some 0) &&
    simRows M N l s u fun t t' => prs.all fun x => simTrans M N sim e f t t' (some x.1) (some x.2)

structure SimCert (M N : Machine) (sim : Sim) (e f : Nat) : Prop where
  startM : ∃ c x d, rowOf M.tables M.start = some ⟨[], [], [c]⟩ ∧ transOf M.tables c = some (x, [d]) ∧ M.act[d]? = some (.call e)
  startN : ∃ c x d, rowOf N.tables N.start = some ⟨[], [], [c]⟩ ∧ transOf N.tables c = some (x, [d]) ∧ N.act[d]? = some (.call f)
  none0M : codesAt M.tables 0 = some []
  none0N : codesAt N.tables 0 = some []
  startFromM : M.tables.fromState[M.start]? = some 0
  startFromN : N.tables.fromState[N.start]? = some 0
  entryFromM : ∃ o c, M.tables.fromState[e]? = some o ∧ codesAt M.tables o = some [c] ∧ M.act[c]? = some .tsHere
  entryFromN : ∃ o c, N.tables.fromState[f]? = some o ∧ codesAt N.tables o = some [c] ∧ N.act[c]? = some .tsHere
  entryToM : ∃ o c, M.tables.toState[e]? = some o ∧ codesAt M.tables o = some [c] ∧ M.act[c]? = some .tsNull
  entryToN : ∃ o c, N.tables.toState[f]? = some o ∧ codesAt N.tables o = some [c] ∧ N.act[c]? = some .tsNull
  entryPosM : e ≠ 0
  entryPosN : f ≠ 0
  entry : ∃ l, simRows M N l e f (fun t t' => simTrans M N sim e f t t' none none) = true
  states : ∀ s, s < sim.length → simState M N sim e f s = true

def simFrame (M : Machine) (e : Nat) : Bool :=
  okStart M e && decide (codesAt M.tables 0 = some []) && decide (M.tables.fromState[M.start]? = some 0) &&
  okOnly M M.tables.fromState e .tsHere && okOnly M M.tables.toState e .tsNull && decide (e ≠ 0)

theorem simFrame_spec {M : Machine} {e : Nat} (h : simFrame M e = true) :
    (∃ c x d, rowOf M.tables M.start = some ⟨[], [], [c]⟩ ∧ transOf M.tables c = some (x, [d]) ∧ M.act[d]? = some (.call e)) ∧ codesAt M.tables 0 = some [] ∧ M.tables.fromState[M.start]? = some 0 ∧
    (∃ o c, M.tables.fromState[e]? = some o ∧ codesAt M.tables o = some [c] ∧ M.act[c]? = some .tsHere) ∧ (∃ o c, M.tables.toState[e]? = some o ∧ codesAt M.tables o = some [c] ∧ M.act[c]? = some .tsNull) ∧ e ≠ 0 := by
  unfold simFrame at h
  simp only [Bool.and_eq_true, decide_eq_true_eq] at h
  obtain ⟨⟨⟨⟨⟨a1, a2⟩, a3⟩, a4⟩, a5⟩, a6⟩ := h
  refine ⟨?_, a2, a3, okOnly_spec a4, okOnly_spec a5, a6⟩
  unfold okStart at a1
  split at a1
  · rename_i c hc
    split at a1
    · rename_i x d hd
      exact ⟨c, x, d, hc, hd, of_decide_eq_true a1⟩
    · cases a1
  · cases a1

theorem simCert_of {M N : Machine} {sim : Sim} {e f : Nat} (l : Both) (h1 : simFrame M e = true) (h2 : simFrame N f = true)
    (h3 : simRows M N l e f (fun t t' => simTrans M N sim e f t t' none none) = true) (h4 : ∀ s, s < sim.length → simState M N sim e f s = true) : SimCert M N sim e f := by
  obtain ⟨a1, a2, a3, a4, a5, a6⟩ := simFrame_spec h1
  obtain ⟨b1, b2, b3, b4, b5, b6⟩ := simFrame_spec h2
  exact ⟨a1, b1, a2, b2, a3, b3, a4, b4, a5, b5, a6, b6, ⟨l, h3⟩, h4⟩

theorem searchKey_neg {c : Int} (hc : c < 0) : ∀ (fuel : Nat) (keys : List Nat) (lo n : Nat), searchKey c fuel keys lo n = searchKey (-1) fuel keys lo n := by
  intro fuel
  induction fuel with
  | zero => intro keys lo n; rfl
  | succ fuel ih =>
    intro keys lo n
    unfold searchKey
    split
    · rfl
    · dsimp only
      split
      · rfl
      · rename_i k _
        rw [if_pos (show c < (k : Int) by omega), if_pos (show (-1 : Int) < (k : Int) by omega)]
        exact ih _ _ _

theorem searchRange_neg {c : Int} (hc : c < 0) : ∀ (fuel : Nat) (keys : List (Nat × Nat)) (lo n : Nat), searchRange c fuel keys lo n = searchRange (-1) fuel keys lo n := by
  intro fuel
  induction fuel with
  | zero => intro keys lo n; rfl
  | succ fuel ih =>
    intro keys lo n
    unfold searchRange
    split
    · rfl
    · dsimp only
      split
      · rfl
      · rename_i k _
        rw [if_pos (show c < (k.1 : Int) by omega), if_pos (show (-1 : Int) < (k.1 : Int) by omega)]
        exact ih _ _ _

theorem cellOf_neg {c : Int} (hc : c < 0) (r : Row) : cellOf r c = cellOf r (-1) := by
  unfold cellOf
  rw [searchKey_neg hc, searchRange_neg hc]

/-- Which bytes: any if char is signed, otherwise ASCII. -/
def simByte (signed : Bool) (b : Nat) : Bool := signed || decide (b < 128)

theorem cellPairs_mem {signed : Bool} {r r' : Row} {l : List (Nat × Nat)} (h : cellPairs r r' l = true) (b : Byte) (hb : simByte signed b.toNat = true) :
    ∃ c d, r.cells[cellOf r (charOf signed b)]? = some c ∧ r'.cells[cellOf r' (charOf signed b)]? = some d ∧ (c, d) ∈ l := by
  unfold cellPairs at h
  simp only [Bool.and_eq_true, List.all_eq_true, List.mem_range] at h
  obtain ⟨h1, h2⟩ := h
  have fin : ∀ c : Int, (match r.cells[cellOf r c]?, r'.cells[cellOf r' c]? with
      | some x, some y => l.contains (x, y)
      | _, _ => false) = true → ∃ x d, r.cells[cellOf r c]? = some x ∧ r'.cells[cellOf r' c]? = some d ∧ (x, d) ∈ l := by
    intro c hc
    split at hc
    · rename_i x y hx hy
      exact ⟨x, y, hx, hy, List.contains_iff_mem.1 hc⟩
    · cases hc
  by_cases hlt : b.toNat < 128
  · have he : charOf signed b = (b.toNat : Int) := by
      unfold charOf
      rw [if_neg (fun hx => by omega)]
    rw [he]
    exact fin _ (h1 _ hlt)
  · have hs : signed = true := by
      unfold simByte at hb
      simp only [Bool.or_eq_true, decide_eq_true_eq] at hb
      exact hb.resolve_right hlt
    have hneg : charOf signed b < 0 := by
      unfold charOf
      rw [if_pos ⟨hs, by omega⟩]
      have := UInt8.toNat_lt b
      omega
    rw [cellOf_neg hneg r, cellOf_neg hneg r']
    exact fin _ h2

theorem simRows_spec {M N : Machine} {signed : Bool} {l : Both} {s u : Nat} {P : Nat × List Nat → Nat × List Nat → Bool} (h : simRows M N l s u P = true) (b : Byte) (hb : simByte signed b.toNat = true) :
    ∃ t t', delta M.tables signed s b = some t ∧ delta N.tables signed u b = some t' ∧ P t t' = true := by
  unfold simRows at h
  simp only [Bool.and_eq_true, decide_eq_true_eq] at h
  obtain ⟨⟨⟨hr, hr'⟩, hl⟩, h⟩ := h
  obtain ⟨c, d, hc, hd, hm⟩ := cellPairs_mem (signed := signed) hl b hb
  have := List.all_eq_true.1 h _ hm
  dsimp only at this
  cases ht : transOf M.tables c with
  | none => rw [ht] at this; cases this
  | some t =>
    cases ht' : transOf N.tables d with
    | none => rw [ht, ht'] at this; cases this
    | some t' =>
      rw [ht, ht'] at this
      refine ⟨t, t', ?_, ?_, this⟩
      · unfold delta; rw [hr]; dsimp only; rw [hc]; exact ht
      · unfold delta; rw [hr']; dsimp only; rw [hd]; exact ht'

/-- States of the two machines that go together. -/
def Together (sim : Sim) (e f : Nat) (σ τ : St) : Prop :=
  σ.core = τ.core ∧ ((σ.cs = e ∧ τ.cs = f) ∨ ∃ prs l, sim[σ.cs]? = some (τ.cs, prs, l) ∧ (σ.act, τ.act) ∈ prs)

theorem ending_spec : ∀ (l : List Act) (σ : St) (fl : Flow), ending l = true → plainActs σ l = .ok fl → ∀ τ, fl ≠ .cont τ := by
  intro l
  induction l with
  | nil => intro σ fl h; cases h
  | cons a l ih =>
    intro σ fl h he τ
    unfold plainActs at he
    obtain ⟨fl1, h1, h2⟩ := Res.bind_eq_ok.1 he
    cases fl1 with
    | cont σ' =>
      dsimp only at h2
      cases l with
      | nil =>
        cases a with
        | emit pl tr strip =>
          simp only [plainAct, finish] at h1
          obtain ⟨x, -, hx⟩ := Res.bind_eq_ok.1 h1
          cases hx
        | stop => cases h1
        | _ => cases h
      | cons b l' =>
        have : ending (b :: l') = true := by
          cases a <;> exact h
        exact ih σ' fl this h2 τ
    | again σ' => cases h2; intro hx; cases hx
    | ret σ' strip => cases h2; intro hx; cases hx
    | stop => cases h2; intro hx; cases hx

theorem retOf_core {text : List Byte} {outSize : Nat} {σ τ : St} {strip : Bool} (h : σ.core = τ.core) : retOf text outSize σ strip = retOf text outSize τ strip := by
  obtain ⟨e1, e2, e3, e4, e5, e6⟩ := St.ext_core h
  unfold retOf
  rw [e2, e3, e4, e5]

theorem sim_loop {M N : Machine} {signed : Bool} {sim : Sim} {e f : Nat} (C : SimCert M N sim e f) {text : List Byte} {outSize : Nat} (ht : ∀ b ∈ text, simByte signed b.toNat = true) :
    ∀ (fuel : Nat) (σ τ : St), Together sim e f σ τ → loop M signed text outSize fuel σ = loop N signed text outSize fuel τ := by
  intro fuel
  induction fuel with
  | zero => intro σ τ _; rfl
  | succ fuel ih =>
    intro σ τ hT
    -- one transition
    have step : ∀ (σ τ : St) (a b : Option Nat) (t u : Nat × List Nat), σ.core = τ.core → (∀ x, a = some x → σ.act = x) → (∀ x, b = some x → τ.act = x) → simTrans M N sim e f t u a b = true →
        (doActs M { σ with cs := t.1 } t.2 >>= fun fl => match fl with
          | .ret σ strip => retOf text outSize σ strip
          | .stop => .ok none
          | .cont σ | .again σ => stateActs M M.tables.toState σ >>= fun σ => if σ.cs = 0 then .ok none else loop M signed text outSize fuel { σ with p := σ.p + 1 }) =
        (doActs N { τ with cs := u.1 } u.2 >>= fun fl => match fl with
          | .ret σ strip => retOf text outSize σ strip
          | .stop => .ok none
          | .cont σ | .again σ => stateActs N N.tables.toState σ >>= fun σ => if σ.cs = 0 then .ok none else loop N signed text outSize fuel { σ with p := σ.p + 1 }) := by
      intro σ τ a b t u hc ha hb h
      unfold simTrans at h
      cases h1 : resolve M a t.2 with
      | none => rw [h1] at h; cases h
      | some x =>
        obtain ⟨l, a'⟩ := x
        cases h2 : resolve N b u.2 with
        | none => rw [h1, h2] at h; cases h
        | some y =>
          obtain ⟨l', b'⟩ := y
          rw [h1, h2] at h
          simp only [Bool.and_eq_true, decide_eq_true_eq, Bool.or_eq_true] at h
          obtain ⟨hl, h⟩ := h
          subst hl
          have s1 := doActs_resolve t.2 a { σ with cs := t.1 } σ.core l a' h1 (by rfl) ha
          have s2 := doActs_resolve u.2 b { τ with cs := u.1 } σ.core l b' h2 (by rw [hc]; rfl) hb
          cases hp : plainActs σ.core l with
          | raise er =>
            rw [hp] at s1
            revert s1
            generalize doActs M { σ with cs := t.1 } t.2 = A
            intro s1
            cases s1
          | ub =>
            rw [hp] at s1 s2
            revert s1 s2
            generalize doActs M { σ with cs := t.1 } t.2 = A
            generalize doActs N { τ with cs := u.1 } u.2 = B
            intro s2 s1
            cases s1
            cases s2
            rfl
          | ok fl =>
            rw [hp] at s1 s2
            have hend := ending_spec l σ.core fl
            revert s1 s2
            generalize doActs M { σ with cs := t.1 } t.2 = A
            generalize doActs N { τ with cs := u.1 } u.2 = B
            intro s2 s1
            cases s1 with
            | ok f1 =>
              cases s2 with
              | ok f2 =>
                simp only [Res.ok_bind]
                cases f1 with
                | stop => cases f2; rfl
                | ret c1 =>
                  cases f2 with
                  | ret c2 => exact retOf_core (c1.trans c2.symm)
                | cont c1 d1 g1 =>
                  rename_i σ1 ρ
                  cases f2 with
                  | cont c2 d2 g2 =>
                    rename_i τ1
                    have hcc : σ1.core = τ1.core := c1.trans c2.symm
                    have hne : ending l ≠ true := fun hx => hend hx hp _ rfl
                    dsimp only
                    dsimp only at d1 d2
                    obtain ⟨q1, q2, q3, q4, q5, q6⟩ := St.ext_core hcc
                    rcases h with (h | h) | h
                    · exact absurd h hne
                    · obtain ⟨o, c, t1, t2, t3⟩ := C.entryToM
                      obtain ⟨o', c', t1', t2', t3'⟩ := C.entryToN
                      rw [stateActs_one (by rw [d1, h.1]; exact t1) t2 t3 (σ' := { σ1 with ts := none }) rfl, stateActs_one (by rw [d2, h.2]; exact t1') t2' t3' (σ' := { τ1 with ts := none }) rfl]
                      simp only [Res.ok_bind]
                      rw [if_neg (by rw [d1, h.1]; exact C.entryPosM), if_neg (by rw [d2, h.2]; exact C.entryPosN)]
                      exact ih _ _ ⟨St.core_of (by simp only [q1]) rfl q3 q4 q5 q6, Or.inl ⟨d1.trans h.1, d2.trans h.2⟩⟩
                    · obtain ⟨⟨h3, h4⟩, h5⟩ := h
                      cases hsim : sim[t.1]? with
                      | none => rw [hsim] at h5; cases h5
                      | some v =>
                        obtain ⟨v, prs, cells⟩ := v
                        rw [hsim] at h5
                        simp only [Bool.and_eq_true, decide_eq_true_eq] at h5
                        obtain ⟨h5, h6⟩ := h5
                        subst h5
                        cases a' with
                        | none => cases h6
                        | some x =>
                          cases b' with
                          | none => cases h6
                          | some y =>
                            dsimp only at h6
                            have hxy := List.contains_iff_mem.1 h6
                            have hst := C.states t.1 (List.getElem?_eq_some_iff.1 hsim).1
                            unfold simState at hst
                            rw [hsim] at hst
                            cases prs with
                            | nil => cases hxy
                            | cons pr prs =>
                              simp only [Bool.and_eq_true, decide_eq_true_eq] at hst
                              obtain ⟨⟨⟨⟨-, -⟩, k3⟩, k4⟩, -⟩ := hst
                              rw [stateActs_none C.none0M (by rw [d1]; exact k3), stateActs_none C.none0N (by rw [d2]; exact k4)]
                              simp only [Res.ok_bind]
                              rw [if_neg (by rw [d1]; exact h3), if_neg (by rw [d2]; exact h4)]
                              refine ih _ _ ⟨St.core_of (by simp only [q1]) q2 q3 q4 q5 q6, Or.inr ⟨pr :: prs, cells, ?_, ?_⟩⟩
                              · show sim[σ1.cs]? = some (τ1.cs, _, _)
                                rw [d1, d2]; exact hsim
                              · show (σ1.act, τ1.act) ∈ _
                                rw [g1 x rfl, g2 y rfl]; exact hxy
    obtain ⟨hc, hT⟩ := hT
    obtain ⟨q1, q2, q3, q4, q5, q6⟩ := St.ext_core hc
    have reads : ∀ p : Int, (∃ b, byteAt text p = .ok b ∧ simByte signed b.toNat = true) ∨ byteAt text p = .ub := by
      intro p
      unfold byteAt
      by_cases h0 : p < 0
      · rw [if_pos h0]; exact Or.inr rfl
      · rw [if_neg h0]
        by_cases h1 : p.toNat = text.length
        · rw [if_pos h1]; exact Or.inl ⟨0, rfl, by unfold simByte; simp⟩
        · rw [if_neg h1]
          cases hx : text[p.toNat]? with
          | none => exact Or.inr rfl
          | some b => exact Or.inl ⟨b, rfl, ht b (List.mem_of_getElem? hx)⟩
    unfold loop
    rcases hT with ⟨h1, h2⟩ | ⟨prs, cells, h1, h2⟩
    · obtain ⟨o, c, t1, t2, t3⟩ := C.entryFromM
      obtain ⟨o', c', t1', t2', t3'⟩ := C.entryFromN
      rw [stateActs_one (by rw [h1]; exact t1) t2 t3 (σ' := { σ with ts := some σ.p }) rfl, stateActs_one (by rw [h2]; exact t1') t2' t3' (σ' := { τ with ts := some τ.p }) rfl]
      simp only [Res.ok_bind]
      rcases reads σ.p with ⟨b, hb, hbb⟩ | hb
      · rw [show byteAt text τ.p = .ok b by rw [← q1]; exact hb, hb]
        simp only [Res.ok_bind]
        obtain ⟨cells, hcells⟩ := C.entry
        obtain ⟨t, t', d1, d2, hP⟩ := simRows_spec (signed := signed) hcells b hbb
        rw [h1, h2, d1, d2]
        simp only [Res.ofOption, Res.ok_bind]
        exact step { σ with ts := some σ.p } { τ with ts := some τ.p } none none t t' (St.core_of q1 (by simp only [q1]) q3 q4 q5 q6) (fun x hx => by cases hx) (fun x hx => by cases hx) hP
      · rw [show byteAt text τ.p = .ub by rw [← q1]; exact hb, hb]; rfl
    · have hst := C.states σ.cs (List.getElem?_eq_some_iff.1 h1).1
      unfold simState at hst
      rw [h1] at hst
      cases prs with
      | nil => cases h2
      | cons pr prs =>
        simp only [Bool.and_eq_true, decide_eq_true_eq] at hst
        obtain ⟨⟨⟨⟨k1, k2⟩, -⟩, -⟩, k5⟩ := hst
        rw [stateActs_none C.none0M k1, stateActs_none C.none0N k2]
        simp only [Res.ok_bind]
        rcases reads σ.p with ⟨b, hb, hbb⟩ | hb
        · rw [show byteAt text τ.p = .ok b by rw [← q1]; exact hb, hb]
          simp only [Res.ok_bind]
          obtain ⟨t, t', d1, d2, hP⟩ := simRows_spec (signed := signed) k5 b hbb
          rw [d1, d2]
          simp only [Res.ofOption, Res.ok_bind]
          exact step σ τ (some σ.act) (some τ.act) t t' hc (fun x hx => Option.some.inj hx) (fun x hx => Option.some.inj hx) (List.all_eq_true.1 hP _ h2)
        · rw [show byteAt text τ.p = .ub by rw [← q1]; exact hb, hb]; rfl

/-- Scans, and tokens. -/
theorem sim_scan {M N : Machine} {signed : Bool} {sim : Sim} {e f : Nat} (C : SimCert M N sim e f) {text : List Byte} {outSize : Nat} (ht : ∀ b ∈ text, simByte signed b.toNat = true) (q : Nat) (hq : q ≤ text.length) :
    scan M signed text outSize q = scan N signed text outSize q := by
  rw [scan_start C.startM C.none0M C.startFromM C.entryToM C.entryPosM q hq, scan_start C.startN C.none0N C.startFromN C.entryToN C.entryPosN q hq]
  exact sim_loop C ht _ _ _ ⟨rfl, Or.inl ⟨rfl, rfl⟩⟩

theorem sim_tokens {M N : Machine} {signed : Bool} {sim : Sim} {e f : Nat} (C : SimCert M N sim e f) {text : List Byte} (ht : ∀ b ∈ text, simByte signed b.toNat = true)
    (hM : ∀ q, q ≤ text.length → scan M signed text 254 q = .ok none ∨ ∃ g, scan M signed text 254 q = .ok (some g) ∧ g.stop.toNat ≤ text.length) : ∀ (fuel q : Nat), q ≤ text.length →
    tokens N signed text fuel q = tokens M signed text fuel q := by
  intro fuel
  induction fuel with
  | zero => intro q _; unfold tokens; rfl
  | succ fuel ih =>
    intro q hq
    unfold tokens
    rw [← sim_scan C ht q hq]
    rcases hM q hq with h | ⟨g, h, hg⟩
    · rw [h]; simp only [Res.ok_bind]
    · rw [h]
      simp only [Res.ok_bind]
      rw [ih _ hg]

end Ferret.Scan
