import Verif.Model.Scan
import Verif.Spec.Scan

/-!
Scanners: bounds on the variables, checked for every transition of the tables, are kept by every run.
-/

namespace Ferret.Scan
open Ferret Ferret.Spec

/-! ### Searching -/

theorem searchKey_some (c : Int) : ∀ (fuel : Nat) (keys : List Nat) (lo n i : Nat), searchKey c fuel keys lo n = some i → ∃ k, keys[i]? = some k ∧ c = k := by
  intro fuel
  induction fuel with
  | zero => intro keys lo n i h; cases h
  | succ fuel ih =>
    intro keys lo n i h
    unfold searchKey at h
    by_cases hn : n = 0
    · rw [if_pos hn] at h; cases h
    · rw [if_neg hn] at h
      dsimp only at h
      cases hk : keys[lo + (n - 1) / 2]? with
      | none => rw [hk] at h; cases h
      | some k =>
        rw [hk] at h
        dsimp only at h
        by_cases h1 : c < k
        · rw [if_pos h1] at h; exact ih _ _ _ _ h
        · rw [if_neg h1] at h
          by_cases h2 : c > k
          · rw [if_pos h2] at h; exact ih _ _ _ _ h
          · rw [if_neg h2] at h
            cases h
            exact ⟨k, hk, by omega⟩

theorem searchRange_some (c : Int) : ∀ (fuel : Nat) (rs : List (Nat × Nat)) (lo n i : Nat), searchRange c fuel rs lo n = some i → ∃ k, rs[i]? = some k ∧ (k.1 : Int) ≤ c ∧ c ≤ k.2 := by
  intro fuel
  induction fuel with
  | zero => intro keys lo n i h; cases h
  | succ fuel ih =>
    intro keys lo n i h
    unfold searchRange at h
    by_cases hn : n = 0
    · rw [if_pos hn] at h; cases h
    · rw [if_neg hn] at h
      dsimp only at h
      cases hk : keys[lo + (n - 1) / 2]? with
      | none => rw [hk] at h; cases h
      | some k =>
        rw [hk] at h
        dsimp only at h
        by_cases h1 : c < k.1
        · rw [if_pos h1] at h; exact ih _ _ _ _ h
        · rw [if_neg h1] at h
          by_cases h2 : c > k.2
          · rw [if_pos h2] at h; exact ih _ _ _ _ h
          · rw [if_neg h2] at h
            cases h
            exact ⟨k, hk, by omega, by omega⟩

/-- Which bytes a text can have, and which keys and ranges its characters can be in. -/
structure Lim where
  byte : Nat → Bool
  key : Nat → Bool
  range : Nat × Nat → Bool

def Lim.allows (lim : Lim) (c : Int) : Prop := (∀ k : Nat, c = k → lim.key k = true) ∧ ∀ r : Nat × Nat, (r.1 : Int) ≤ c → c ≤ r.2 → lim.range r = true

/-- The cells of a row that such a character can lead to. -/
def cellsFor (r : Row) (lim : Lim) : List Nat :=
  ((r.keys.zip r.cells).filterMap fun x => if lim.key x.1 then some x.2 else none) ++
  ((r.ranges.zip (r.cells.drop r.keys.length)).filterMap fun x => if lim.range x.1 then some x.2 else none) ++
  (r.cells.drop (r.keys.length + r.ranges.length))

theorem cellOf_mem (r : Row) (lim : Lim) (c : Int) (hc : lim.allows c) (tr : Nat) (h : r.cells[cellOf r c]? = some tr) : tr ∈ cellsFor r lim := by
  unfold cellOf at h
  unfold cellsFor
  cases h1 : searchKey c (r.keys.length + 1) r.keys 0 r.keys.length with
  | some i =>
    rw [h1] at h
    dsimp only at h
    obtain ⟨k, hk, hck⟩ := searchKey_some _ _ _ _ _ _ h1
    refine List.mem_append_left _ (List.mem_append_left _ (List.mem_filterMap.2 ⟨(k, tr), ?_, ?_⟩))
    · exact List.mem_of_getElem? (i := i) (by rw [List.getElem?_zip_eq_some]; exact ⟨hk, h⟩)
    · simp [hc.1 k hck]
  | none =>
    rw [h1] at h
    dsimp only at h
    cases h2 : searchRange c (r.ranges.length + 1) r.ranges 0 r.ranges.length with
    | some i =>
      rw [h2] at h
      dsimp only at h
      obtain ⟨k, hk, hlo, hhi⟩ := searchRange_some _ _ _ _ _ _ h2
      refine List.mem_append_left _ (List.mem_append_right _ (List.mem_filterMap.2 ⟨(k, tr), ?_, ?_⟩))
      · exact List.mem_of_getElem? (i := i) (by rw [List.getElem?_zip_eq_some, List.getElem?_drop]; exact ⟨hk, h⟩)
      · simp [hc.2 k hlo hhi]
    | none =>
      rw [h2] at h
      dsimp only at h
      refine List.mem_append_right _ (List.mem_of_getElem? (i := 0) ?_)
      rw [List.getElem?_drop]
      exact h

theorem cellOf_lt (r : Row) (c : Int) : cellOf r c ≤ r.keys.length + r.ranges.length := by
  unfold cellOf
  cases h1 : searchKey c (r.keys.length + 1) r.keys 0 r.keys.length with
  | some i =>
    obtain ⟨k, hk, -⟩ := searchKey_some _ _ _ _ _ _ h1
    have := (List.getElem?_eq_some_iff.1 hk).1
    show i ≤ _
    omega
  | none =>
    dsimp only
    cases h2 : searchRange c (r.ranges.length + 1) r.ranges 0 r.ranges.length with
    | some i =>
      obtain ⟨k, hk, -⟩ := searchRange_some _ _ _ _ _ _ h2
      have := (List.getElem?_eq_some_iff.1 hk).1
      show r.keys.length + i ≤ _
      omega
    | none => exact Nat.le_refl _

/-! ### Bounds -/

/-- 0 a dot, 1 a letter or digit, 2 anything else. -/
def classOf (b : Byte) : Nat := if b = 46 then 0 else if isAlnum b then 1 else 2

/-- What is known in the middle of a match that began `n` bytes before: `skip + dn ≤ n`; `skip + dm ≤ te - ts`;
`trunc ≤ R`; the class of the first byte; `n` if it is 0 or 1; whether `te = ts + 1`; whether `skip` and `trunc` are 0;
whether `te` is set. -/
structure W where
  dn : Nat
  dm : Option Nat
  R : Nat
  first : Option Nat
  n : Option Nat
  m1 : Bool
  kz : Bool
  set : Bool
  deriving DecidableEq

inductive AOut where
  | next (act : Option Nat) (w : W)
  | ret
  | pass
  | stop
  deriving DecidableEq

/-- A match that ends here has so many bytes after `skip`. -/
def aFits (nul : Bool) (w : W) (need : Nat) : Place → Bool
  | .next => !nul && decide (need ≤ w.dn + 1)
  | .here => decide (need ≤ w.dn) && decide (w.n ≠ some 0)
  | .back => match w.dm with
    | some d => decide (need ≤ d) && w.set
    | none => false

/-- A match that ends here is of one byte. -/
def aOne (nul : Bool) (w : W) : Place → Bool
  | .next => !nul && decide (w.n = some 0)
  | .here => decide (w.n = some 1)
  | .back => w.m1 && w.set

/-- The end of a match, by what is known; `ml` bytes at least are to be left of a token. -/
def aFinish (ml : Nat) (nul : Bool) (w : W) : Act → Option AOut
  | .emit pl tr strip =>
    if aFits nul w (tr.getD w.R + ml) pl && decide (tr.getD w.R ≤ 2) && (!strip || (w.kz && (decide (w.first = some 1) || decide (w.first = some 2)))) then some .ret else none
  | .pass pl =>
    if aOne nul w pl && w.kz && (decide (w.first = some 0) || decide (w.first = some 2)) then some .pass else none
  | _ => none

/-- The actions of a transition, by what is known, with the pattern if it is. -/
def aActs (M : Machine) (ml : Nat) (nul : Bool) : List Nat → Option Nat → W → Option AOut
  | [], act, w => if nul then none else some (.next act w)
  | c :: cs, act, w => match M.act[c]? with
    | some .skip => aActs M ml nul cs act { w with dn := 0, dm := none, kz := false }
    | some .trunc => aActs M ml nul cs act { w with R := max w.R 1, kz := false }
    | some .mark => if nul then none else aActs M ml nul cs act { w with dm := some (w.dn + 1), m1 := decide (w.n = some 0), set := true }
    | some (.setAct k) => aActs M ml nul cs (some k) w
    | some .stop => if nul && decide (w.n = some 0) then some .stop else none
    | some .switch => if cs = [] then (act.bind M.case).bind (aFinish ml nul w) else none
    | some (.emit pl tr strip) => if cs = [] then aFinish ml nul w (.emit pl tr strip) else none
    | some (.pass pl) => if cs = [] then aFinish ml nul w (.pass pl) else none
    | _ => none

/-- A byte later. -/
def W.step (w : W) : W := { w with dn := w.dn + 1, n := match w.n with
  | some 0 => some 1
  | _ => none }

/-- What is known in `v` follows from what is known in `w`. -/
def W.le (w v : W) : Bool :=
  decide (v.dn ≤ w.dn) &&
  (match v.dm with
    | none => true
    | some d => match w.dm with
      | none => false
      | some d' => decide (d ≤ d')) &&
  decide (w.R ≤ v.R) && (decide (v.first = none) || decide (v.first = w.first)) && (decide (v.n = none) || decide (v.n = w.n)) &&
  (!v.m1 || w.m1) && (!v.kz || w.kz) && (!v.set || w.set) && decide (w.n ≠ some 0)

/-- The variables in the middle of a match that began at `a`. -/
structure Mid (text : List Byte) (a n m k r : Nat) (σ : St) (w : W) : Prop where
  ts : σ.ts = some (a : Int)
  p : σ.p = (a : Int) + n
  skip : σ.skip = k
  trunc : σ.trunc = r
  dn : k + w.dn ≤ n
  R : r ≤ w.R
  te : w.set = true → σ.te = some ((a : Int) + m) ∧ 1 ≤ m ∧ a + m ≤ text.length
  dm : ∀ d, w.dm = some d → k + d ≤ m
  first : ∀ c, w.first = some c → ∃ b, text[a]? = some b ∧ classOf b = c
  nEq : ∀ v, w.n = some v → n = v
  m1 : w.m1 = true → m = 1
  kz : w.kz = true → k = 0 ∧ r = 0
  pos : w.n ≠ some 0 → 1 ≤ n

theorem Mid.mono {text : List Byte} {a n m k r : Nat} {σ : St} {w v : W} (h : Mid text a n m k r σ w) (hv : w.le v = true) : Mid text a n m k r σ v := by
  unfold W.le at hv
  simp only [Bool.and_eq_true, decide_eq_true_eq, Bool.or_eq_true, Bool.not_eq_true'] at hv
  obtain ⟨⟨⟨⟨⟨⟨⟨⟨h1, h2⟩, h3⟩, h4⟩, h5⟩, h6⟩, h7⟩, h8⟩, h9⟩ := hv
  refine ⟨h.ts, h.p, h.skip, h.trunc, ?_, ?_, fun hs => h.te ?_, fun d hd => ?_, fun c hc => ?_, fun x hx => ?_, fun hm => h.m1 ?_, fun hk => h.kz ?_, fun _ => h.pos h9⟩
  · have := h.dn; omega
  · have := h.R; omega
  · rcases h8 with h8 | h8
    · rw [h8] at hs; cases hs
    · exact h8
  · rw [hd] at h2
    cases hw : w.dm with
    | none => rw [hw] at h2; cases h2
    | some d' =>
      rw [hw] at h2
      have h2' : d ≤ d' := of_decide_eq_true h2
      have := h.dm d' hw
      omega
  · rcases h4 with h4 | h4
    · rw [h4] at hc; cases hc
    · exact h.first c (by rw [← h4]; exact hc)
  · rcases h5 with h5 | h5
    · rw [h5] at hx; cases hx
    · exact h.nEq x (by rw [← h5]; exact hx)
  · rcases h6 with h6 | h6
    · rw [h6] at hm; cases hm
    · exact h6
  · rcases h7 with h7 | h7
    · rw [h7] at hk; cases hk
    · exact h7

theorem Mid.stepped {text : List Byte} {a n m k r : Nat} {σ : St} {w : W} (h : Mid text a n m k r σ w) : Mid text a (n + 1) m k r { σ with p := σ.p + 1 } w.step := by
  refine ⟨h.ts, ?_, h.skip, h.trunc, ?_, h.R, h.te, h.dm, h.first, fun v hv => ?_, h.m1, h.kz, fun _ => by omega⟩
  · show σ.p + 1 = _
    rw [h.p]; omega
  · have := h.dn
    show k + (w.dn + 1) ≤ n + 1
    omega
  · unfold W.step at hv
    dsimp only at hv
    cases hw : w.n with
    | none => rw [hw] at hv; cases hv
    | some x =>
      rw [hw] at hv
      cases x with
      | zero => cases hv; rw [h.nEq 0 hw]
      | succ x => cases hv

/-- What becomes of a match. -/
def Outcome (text : List Byte) (ml a n : Nat) (σ : St) : AOut → Flow → Prop
  | .next act w, fl => ∃ σ' m k r, fl = .cont σ' ∧ Mid text a n m k r σ' w ∧ (∀ x, act = some x → σ'.act = x) ∧ σ'.cs = σ.cs
  | .ret, fl => ∃ (σ' : St) (strip : Bool) (m k r : Nat), fl = .ret σ' strip ∧ σ'.ts = some (a : Int) ∧ σ'.te = some ((a : Int) + m) ∧ σ'.skip = (k : Int) ∧ σ'.trunc = (r : Int) ∧
      1 ≤ m ∧ a + m ≤ text.length ∧ k + r + ml ≤ m ∧ r ≤ 2 ∧ (strip = true → k = 0 ∧ ∃ b, text[a]? = some b ∧ b ≠ 46)
  | .pass, fl => ∃ σ' b, fl = .cont σ' ∧ σ'.p = a ∧ σ'.skip = 0 ∧ σ'.trunc = 0 ∧ σ'.cs = σ.cs ∧ text[a]? = some b ∧ isAlnum b = false
  | .stop, fl => fl = .stop ∧ n = 0

theorem classOf_ne1 {b : Byte} (h : classOf b = 0 ∨ classOf b = 2) : isAlnum b = false := by
  unfold classOf at h
  cases hb : isAlnum b with
  | false => rfl
  | true =>
    rw [hb] at h
    by_cases h46 : b = 46
    · subst h46; exact absurd hb (by decide)
    · rw [if_neg h46, if_pos rfl] at h
      omega

theorem classOf_ne0 {b : Byte} (h : classOf b = 1 ∨ classOf b = 2) : b ≠ 46 := by
  intro h46
  unfold classOf at h
  rw [if_pos h46] at h
  omega

theorem aFinish_sound {text : List Byte} {ml a n m k r : Nat} {nul : Bool} {σ : St} {w : W} {o : AOut} (act : Act) (h : Mid text a n m k r σ w) (hp : a + n ≤ text.length) (hnul : nul = false → a + n < text.length)
    (ha : aFinish ml nul w act = some o) : ∃ fl, finish σ act = .ok fl ∧ Outcome text ml a n σ o fl := by
  cases act with
  | emit pl tr strip =>
    simp only [aFinish] at ha
    split at ha
    case isFalse => cases ha
    case isTrue hc =>
      cases ha
      simp only [Bool.and_eq_true, decide_eq_true_eq, Bool.or_eq_true, Bool.not_eq_true'] at hc
      obtain ⟨⟨hfit, hr2⟩, hstrip⟩ := hc
      -- `trunc` and the strip condition
      have hstrip' : strip = true → k = 0 ∧ ∃ b, text[a]? = some b ∧ b ≠ 46 := by
        intro hs
        rcases hstrip with hx | ⟨hkz, hf⟩
        · rw [hs] at hx; cases hx
        · refine ⟨(h.kz hkz).1, ?_⟩
          rcases hf with hf | hf
          · obtain ⟨b, hb, hcl⟩ := h.first _ hf
            exact ⟨b, hb, classOf_ne0 (Or.inl hcl)⟩
          · obtain ⟨b, hb, hcl⟩ := h.first _ hf
            exact ⟨b, hb, classOf_ne0 (Or.inr hcl)⟩
      have main : ∀ (σ' : St) (m' : Nat), placed σ pl = .ok σ' → σ'.ts = σ.ts → σ'.skip = σ.skip → σ'.trunc = σ.trunc → σ'.te = some ((a : Int) + m') → 1 ≤ m' → a + m' ≤ text.length → k + (tr.getD w.R + ml) ≤ m' →
          ∃ fl, finish σ (.emit pl tr strip) = .ok fl ∧ Outcome text ml a n σ .ret fl := by
        intro σ' m' e1 e2 e3 e4 e5 e6 e7 e8
        unfold finish
        simp only [e1, Res.ok_bind]
        refine ⟨_, rfl, ?_⟩
        cases tr with
        | none =>
          have := h.R
          simp only [Option.getD_none] at e8 hr2
          exact ⟨σ', strip, m', k, r, rfl, e2.trans h.ts, e5, e3.trans h.skip, e4.trans h.trunc, e6, e7, by omega, by omega, hstrip'⟩
        | some t =>
          simp only [Option.getD_some] at e8 hr2
          exact ⟨{ σ' with trunc := t }, strip, m', k, t, rfl, e2.trans h.ts, e5, e3.trans h.skip, rfl, e6, e7, by omega, hr2, hstrip'⟩
      have hdn := h.dn
      cases pl with
      | next =>
        simp only [aFits, Bool.and_eq_true, decide_eq_true_eq, Bool.not_eq_true'] at hfit
        have := hnul hfit.1
        exact main { σ with te := some (σ.p + 1) } (n + 1) rfl rfl rfl rfl (by show some (σ.p + 1) = _; rw [h.p]; congr 1) (by omega) (by omega) (by omega)
      | here =>
        simp only [aFits, Bool.and_eq_true, decide_eq_true_eq] at hfit
        have hn0 : 1 ≤ n := h.pos hfit.2
        exact main { σ with te := some σ.p, p := σ.p - 1 } n rfl rfl rfl rfl (by show some σ.p = _; rw [h.p]) (by omega) (by omega) (by omega)
      | back =>
        unfold aFits at hfit
        cases hdm : w.dm with
        | none => rw [hdm] at hfit; cases hfit
        | some d =>
          rw [hdm] at hfit
          simp only [Bool.and_eq_true, decide_eq_true_eq] at hfit
          obtain ⟨h1, h2, h3⟩ := h.te hfit.2
          have := h.dm d hdm
          refine main { σ with p := (a : Int) + m - 1 } m ?_ rfl rfl rfl h1 h2 h3 (by omega)
          unfold placed
          rw [h1]
          rfl
  | pass pl =>
    simp only [aFinish] at ha
    split at ha
    case isFalse => cases ha
    case isTrue hc =>
      cases ha
      simp only [Bool.and_eq_true, decide_eq_true_eq, Bool.or_eq_true] at hc
      obtain ⟨⟨hone, hkz⟩, hf⟩ := hc
      obtain ⟨b, hb, hal⟩ : ∃ b, text[a]? = some b ∧ isAlnum b = false := by
        rcases hf with hf | hf
        · obtain ⟨b, hb, hcl⟩ := h.first _ hf
          exact ⟨b, hb, classOf_ne1 (Or.inl hcl)⟩
        · obtain ⟨b, hb, hcl⟩ := h.first _ hf
          exact ⟨b, hb, classOf_ne1 (Or.inr hcl)⟩
      obtain ⟨hk, hr⟩ := h.kz hkz
      have hsk : σ.skip = 0 := by rw [h.skip, hk]; rfl
      have htr : σ.trunc = 0 := by rw [h.trunc, hr]; rfl
      unfold finish
      cases pl with
      | next =>
        simp only [aOne, Bool.and_eq_true, decide_eq_true_eq, Bool.not_eq_true'] at hone
        refine ⟨_, rfl, _, b, rfl, ?_, hsk, htr, rfl, hb, hal⟩
        show σ.p = a
        rw [h.p, h.nEq 0 hone.2]
        omega
      | here =>
        simp only [aOne, decide_eq_true_eq] at hone
        refine ⟨_, rfl, _, b, rfl, ?_, hsk, htr, rfl, hb, hal⟩
        show σ.p - 1 = a
        rw [h.p, h.nEq 1 hone]
        omega
      | back =>
        simp only [aOne, Bool.and_eq_true] at hone
        obtain ⟨h1, -, -⟩ := h.te hone.2
        unfold placed
        rw [h1]
        refine ⟨_, rfl, _, b, rfl, ?_, hsk, htr, rfl, hb, hal⟩
        show (a : Int) + m - 1 = a
        rw [h.m1 hone.1]
        omega
  | _ => cases ha

theorem aActs_sound {M : Machine} {text : List Byte} {ml a n : Nat} {nul : Bool} (hp : a + n ≤ text.length) (hnul : nul = false → a + n < text.length) : ∀ (cs : List Nat) (act : Option Nat) (w : W) (σ : St) (m k r : Nat) (o : AOut),
    Mid text a n m k r σ w → (∀ x, act = some x → σ.act = x) → aActs M ml nul cs act w = some o → ∃ fl, doActs M σ cs = .ok fl ∧ Outcome text ml a n σ o fl := by
  intro cs
  induction cs with
  | nil =>
    intro act w σ m k r o h hact ha
    unfold aActs at ha
    cases nul with
    | true => cases ha
    | false => cases ha; exact ⟨_, rfl, σ, m, k, r, rfl, h, hact, rfl⟩
  | cons c cs ih =>
    intro act w σ m k r o h hact ha
    unfold aActs at ha
    cases hc : M.act[c]? with
    | none => rw [hc] at ha; cases ha
    | some x =>
      rw [hc] at ha
      unfold doActs
      rw [hc]
      -- an action that goes on
      have goOn : ∀ (σ' : St) (act' : Option Nat) (w' : W) (m' k' r' : Nat), doAct M σ x = .ok (.cont σ') → Mid text a n m' k' r' σ' w' → (∀ x, act' = some x → σ'.act = x) → σ'.cs = σ.cs → aActs M ml nul cs act' w' = some o →
          ∃ fl, (Res.ofOption (some x) >>= fun a => doAct M σ a >>= fun fl => match fl with | .cont σ => doActs M σ cs | fl => .ok fl) = .ok fl ∧ Outcome text ml a n σ o fl := by
        intro σ' act' w' m' k' r' e1 e2 e3 e4 e5
        obtain ⟨fl, h1, h2⟩ := ih act' w' σ' m' k' r' o e2 e3 e5
        refine ⟨fl, ?_, ?_⟩
        · simp only [Res.ofOption, Res.ok_bind, e1]
          exact h1
        · cases o with
          | next _ _ => obtain ⟨s1, m1, k1, r1, q1, q2, q3, q4⟩ := h2; exact ⟨s1, m1, k1, r1, q1, q2, q3, q4.trans e4⟩
          | ret => exact h2
          | pass => obtain ⟨s1, b1, q1, q2, q3, q4, q5, q6⟩ := h2; exact ⟨s1, b1, q1, q2, q3, q4, q5.trans e4, q6⟩
          | stop => exact h2
      -- one that ends a match
      have ends : ∀ (y : Act), doAct M σ x = finish σ y → cs = [] → aFinish ml nul w y = some o →
          ∃ fl, (Res.ofOption (some x) >>= fun a => doAct M σ a >>= fun fl => match fl with | .cont σ => doActs M σ cs | fl => .ok fl) = .ok fl ∧ Outcome text ml a n σ o fl := by
        intro y e1 e2 e3
        obtain ⟨fl, h1, h2⟩ := aFinish_sound y h hp hnul e3
        refine ⟨fl, ?_, h2⟩
        simp only [Res.ofOption, Res.ok_bind, e1, h1, e2]
        cases fl <;> rfl
      have hdn := h.dn
      cases x with
      | call cs' => cases ha
      | tsNull => cases ha
      | tsHere => cases ha
      | skip =>
        dsimp only at ha
        refine goOn { σ with skip := σ.p - a } act _ m n r ?_ ?_ hact rfl ha
        · unfold doAct; rw [h.ts]; rfl
        · exact ⟨h.ts, h.p, by show σ.p - a = _; rw [h.p]; omega, h.trunc, by show n + 0 ≤ n; omega, h.R, h.te, fun d hd => (by cases hd), h.first, h.nEq, h.m1, fun hk => (by cases hk), h.pos⟩
      | trunc =>
        dsimp only at ha
        refine goOn { σ with trunc := 1 } act _ m k 1 rfl ?_ hact rfl ha
        exact ⟨h.ts, h.p, h.skip, rfl, h.dn, by show 1 ≤ max w.R 1; omega, h.te, h.dm, h.first, h.nEq, h.m1, fun hk => (by cases hk), h.pos⟩
      | mark =>
        dsimp only at ha
        cases hn : nul with
        | true => rw [hn] at ha; cases ha
        | false =>
          have hlt := hnul hn
          rw [hn] at ha goOn
          refine goOn { σ with te := some (σ.p + 1) } act _ (n + 1) k r rfl ?_ hact rfl ha
          refine ⟨h.ts, h.p, h.skip, h.trunc, h.dn, h.R, fun _ => ⟨?_, by omega, by omega⟩, fun d hd => ?_, h.first, h.nEq, fun hm => ?_, h.kz, h.pos⟩
          · show some (σ.p + 1) = _
            rw [h.p]; congr 1
          · cases hd; omega
          · have : w.n = some 0 := of_decide_eq_true hm
            rw [h.nEq 0 this]
      | setAct k' =>
        dsimp only at ha
        refine goOn { σ with act := k' } (some k') w m k r rfl ?_ (fun x hx => Option.some.inj hx) rfl ha
        exact ⟨h.ts, h.p, h.skip, h.trunc, h.dn, h.R, h.te, h.dm, h.first, h.nEq, h.m1, h.kz, h.pos⟩
      | stop =>
        dsimp only at ha
        split at ha
        case isFalse => cases ha
        case isTrue hc =>
          cases ha
          simp only [Bool.and_eq_true, decide_eq_true_eq] at hc
          exact ⟨.stop, rfl, rfl, h.nEq 0 hc.2⟩
      | switch =>
        dsimp only at ha
        split at ha
        case isFalse => cases ha
        case isTrue hcs =>
          cases act with
          | none => cases ha
          | some x =>
            cases hcase : M.case x with
            | none => rw [Option.bind_some, hcase] at ha; cases ha
            | some y =>
              rw [Option.bind_some, hcase] at ha
              refine ends y ?_ hcs ha
              unfold doAct
              rw [hact x rfl, hcase]
      | emit pl tr strip =>
        dsimp only at ha
        split at ha
        case isFalse => cases ha
        case isTrue hcs => exact ends _ rfl hcs ha
      | pass pl =>
        dsimp only at ha
        split at ha
        case isFalse => cases ha
        case isTrue hcs => exact ends _ rfl hcs ha

/-! ### The tables -/

/-- What is known in each state, by pattern. -/
abbrev Known := List (List (Nat × W))

/-- A transition keeps what is known. -/
def okTrans (M : Machine) (known : Known) (entry ml : Nat) (nul : Bool) (tr : Nat × List Nat) (act : Option Nat) (w : W) : Bool :=
  match aActs M ml nul tr.2 act w with
  | none => false
  | some .ret => true
  | some .stop => true
  | some .pass => decide (tr.1 = entry)
  | some (.next act' w') => decide (tr.1 ≠ 0) && decide (tr.1 ≠ entry) && w'.set && match known[tr.1]? with
    | none => false
    | some l => l.any fun x => decide (act' = some x.1) && w'.step.le x.2

/-- What is known at the first byte of a match. -/
def w0 (b : Byte) : W := ⟨0, none, 0, if b = 0 then none else some (classOf b), some 0, false, true, false⟩

/-- All transitions of a state in the middle of a match. -/
def okState (M : Machine) (known : Known) (entry ml : Nat) (lim : Lim) (signed : Bool) (r : Row) (l : List (Nat × W)) : Bool :=
  decide (r.cells.length = r.keys.length + r.ranges.length + 1) &&
  ((cellsFor r lim).all fun c => match transOf M.tables c with
    | none => false
    | some tr => l.all fun x => okTrans M known entry ml false tr (some x.1) x.2) &&
  (match r.cells[cellOf r (charOf signed 0)]? with
    | none => false
    | some c => match transOf M.tables c with
      | none => false
      | some tr => l.all fun x => okTrans M known entry ml true tr (some x.1) x.2)

/-- All transitions from the state between matches. -/
def okEntry (M : Machine) (known : Known) (entry ml : Nat) (lim : Lim) (signed : Bool) (r : Row) : Bool :=
  decide (r.cells.length = r.keys.length + r.ranges.length + 1) &&
  (List.range 256).all fun b => (decide (b ≠ 0) && !(lim.byte b)) || match r.cells[cellOf r (charOf signed (UInt8.ofNat b))]? with
    | none => false
    | some c => match transOf M.tables c with
      | none => false
      | some tr => okTrans M known entry ml (decide (b = 0)) tr none (w0 (UInt8.ofNat b))

end Ferret.Scan
