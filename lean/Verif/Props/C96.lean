import Verif.Lemmas.TokenStep
import Verif.Props.C53
import Verif.Props.C63

/-! # C96: streams of tokens are independent of each other, and all memory is freed

`worldRun` (Spec/Streams.lean) says what programs may do and what they see, without memory. -/

namespace Ferret.Props
open Ferret Ferret.Spec Ferret.Ana Ferret.TS

/-- A program that makes tokenizers, filters, analyzers and per-field analyzers, takes streams from them, copies streams, resets them and asks them for tokens in any order, and gives up references in any
order, sees of every stream the tokens of its own text; nothing freed is used; and when no references are left, all is freed.

Missing: a stream with a hyphen filter is not copied, reset or made an analyzer of midway through a text (`c96_hyphen_copy_ub`, `c96_hyphen_reset`); stemmers exist (`c96_stemmer_ub`); mappings are added
before the filter is used (`c96_mapping_late_ub`, `c96_mapping_shared`); filters are put over streams that have no text yet and one reference; the analyzers of the fields of a per-field analyzer are not per-field analyzers. -/
theorem c96_streams_partial (ops : List Op) (W : World) (out : List (Option Token)) (hs : worldRun ops [] = some (W, out)) :
    ∃ N p, (∀ n, N ≤ n → run n ops Prog.start = .ok (p, out)) ∧ ((∀ w ∈ W, w = none) → ∀ o ∈ p.heap, o.cnt = 0) := by
  obtain ⟨N, h', vars', h1, h2, _⟩ := run_ok ops [] [] [] start_good start_inv W out hs
  refine ⟨N, ⟨h', vars'⟩, h1, ?_⟩
  intro hw
  rw [handles_none vars' W hw] at h2
  exact no_leak h2

/-! ### What one stream gives while others are used -/

/-- Does a step change what the variable holds? -/
def changesVar (v : Nat) : Op → Bool
  | .wrap _ w => w == v
  | .reset w _ => w == v
  | .next w => w == v
  | .addMapping w _ _ => w == v
  | .analyzer w => w == v
  | .perField w => w == v
  | .addField p _ w => p == v || w == v
  | .ref w => w == v
  | .deref w => w == v
  | _ => false

def asksFor (v : Nat) : Op → Bool
  | .next w => w == v
  | _ => false

/-- Of what a program prints, what it got by asking one stream. -/
def gotBy (v : Nat) : List Op → List (Option Token) → List (Option Token)
  | .next w :: ops, o :: out => if w = v then o :: gotBy v ops out else gotBy v ops out
  | .next _ :: _, [] => []
  | _ :: ops, out => gotBy v ops out
  | [], _ => []

theorem held_ne {W : World} {v w : Nat} {x : Option Held} (h : (w == v) = false) : (W.set w x)[v]? = W[v]? :=
  List.getElem?_set_ne (by simpa using h)

theorem held_app {W : World} {v : Nat} {x : Option Held} {y : Held} (h : W[v]? = some (some y)) : (W ++ [x])[v]? = some (some y) := by
  rw [List.getElem?_append_left (List.getElem?_eq_some_iff.1 h).1]; exact h

theorem held_set_app {W : World} {v w : Nat} {x x' : Option Held} {y : Held} (h : W[v]? = some (some y)) (hne : (w == v) = false) : (W.set w x ++ [x'])[v]? = some (some y) :=
  held_app ((held_ne hne).trans h)

theorem step_keeps {op : Op} {W W' : World} {out : List (Option Token)} {v : Nat} {y : Held} (hs : worldStep op W = some (W', out)) (hv : W[v]? = some (some y)) (hc : changesVar v op = false) :
    W'[v]? = some (some y) := by
  cases op with
  | tokenizer z => cases hs; exact held_app hv
  | wrap f w =>
    simp only [worldStep] at hs
    split at hs
    · cases hs; exact held_set_app hv hc
    · cases hs
  | clone w =>
    simp only [worldStep] at hs
    split at hs
    · split at hs
      · cases hs; exact held_app hv
      · cases hs
    · cases hs
  | reset w text =>
    simp only [worldStep] at hs
    split at hs
    · split at hs
      · rename_i d _ _ _ _
        cases ht : tokensOf d text with
        | none => rw [ht] at hs; cases hs
        | some l => rw [ht] at hs; cases hs; rw [held_ne hc]; exact hv
      · cases hs
    · cases hs
  | next w =>
    simp only [worldStep] at hs
    split at hs
    · cases hs; rw [held_ne hc]; exact hv
    · cases hs; rw [held_ne hc]; exact hv
    · cases hs
  | addMapping w a b => cases hs
  | analyzer w =>
    simp only [worldStep] at hs
    split at hs
    · split at hs
      · cases hs; exact held_set_app hv hc
      · cases hs
    · cases hs
  | perField w =>
    simp only [worldStep] at hs
    split at hs
    · cases hs; exact held_set_app hv hc
    · cases hs
  | addField p f w =>
    simp only [changesVar, Bool.or_eq_false_iff] at hc
    simp only [worldStep] at hs
    split at hs
    · cases hs; rw [held_ne hc.1, held_ne hc.2]; exact hv
    · cases hs
  | getTs w f text =>
    simp only [worldStep] at hs
    split at hs
    · rename_i d _
      cases ht : tokensOf d text with
      | none => rw [ht] at hs; cases hs
      | some l => rw [ht] at hs; cases hs; exact held_app hv
    · rename_i d fields _
      cases ht : tokensOf ((lookup f fields).getD d) text with
      | none => rw [ht] at hs; cases hs
      | some l => rw [ht] at hs; cases hs; exact held_app hv
    · cases hs
  | ref w =>
    simp only [worldStep] at hs
    split at hs
    · cases hs; rw [held_ne hc]; exact hv
    · cases hs
  | deref w =>
    simp only [worldStep] at hs
    split at hs
    · cases hs; rw [held_ne hc]; exact hv
    · cases hs

theorem step_out {op : Op} {W W' : World} {out : List (Option Token)} (hs : worldStep op W = some (W', out)) : (∃ w o, op = .next w ∧ out = [o]) ∨ ((∀ w, op ≠ .next w) ∧ out = []) := by
  cases op with
  | next w =>
    simp only [worldStep] at hs
    split at hs
    · cases hs; exact .inl ⟨w, _, rfl, rfl⟩
    · cases hs; exact .inl ⟨w, _, rfl, rfl⟩
    · cases hs
  | tokenizer z => cases hs; exact .inr ⟨(by intro w h; cases h), rfl⟩
  | wrap f w =>
    simp only [worldStep] at hs
    split at hs
    · cases hs; exact .inr ⟨(by intro w h; cases h), rfl⟩
    · cases hs
  | clone w =>
    simp only [worldStep] at hs
    split at hs
    · split at hs
      · cases hs; exact .inr ⟨(by intro w h; cases h), rfl⟩
      · cases hs
    · cases hs
  | reset w text =>
    simp only [worldStep] at hs
    split at hs
    · split at hs
      · rename_i d _ _ _ _
        cases ht : tokensOf d text with
        | none => rw [ht] at hs; cases hs
        | some l => rw [ht] at hs; cases hs; exact .inr ⟨(by intro w h; cases h), rfl⟩
      · cases hs
    · cases hs
  | addMapping w a b => cases hs
  | analyzer w =>
    simp only [worldStep] at hs
    split at hs
    · split at hs
      · cases hs; exact .inr ⟨(by intro w h; cases h), rfl⟩
      · cases hs
    · cases hs
  | perField w =>
    simp only [worldStep] at hs
    split at hs
    · cases hs; exact .inr ⟨(by intro w h; cases h), rfl⟩
    · cases hs
  | addField p f w =>
    simp only [worldStep] at hs
    split at hs
    · cases hs; exact .inr ⟨(by intro w h; cases h), rfl⟩
    · cases hs
  | getTs w f text =>
    simp only [worldStep] at hs
    split at hs
    · rename_i d _
      cases ht : tokensOf d text with
      | none => rw [ht] at hs; cases hs
      | some l => rw [ht] at hs; cases hs; exact .inr ⟨(by intro w h; cases h), rfl⟩
    · rename_i d fields _
      cases ht : tokensOf ((lookup f fields).getD d) text with
      | none => rw [ht] at hs; cases hs
      | some l => rw [ht] at hs; cases hs; exact .inr ⟨(by intro w h; cases h), rfl⟩
    · cases hs
  | ref w =>
    simp only [worldStep] at hs
    split at hs
    · cases hs; exact .inr ⟨(by intro w h; cases h), rfl⟩
    · cases hs
  | deref w =>
    simp only [worldStep] at hs
    split at hs
    · cases hs; exact .inr ⟨(by intro w h; cases h), rfl⟩
    · cases hs

theorem gotBy_other {v : Nat} {op : Op} (h : ∀ w, op ≠ .next w) (ops : List Op) (out : List (Option Token)) : gotBy v (op :: ops) out = gotBy v ops out := by
  cases op with
  | next w => exact absurd rfl (h w)
  | _ => rfl

theorem world_got (v : Nat) : ∀ (ops : List Op) (W W' : World) (out : List (Option Token)) (c : Nat) (d : Desc) (rest : List Token) (ph : Phase), worldRun ops W = some (W', out) →
    W[v]? = some (some (.stream c d (some rest) ph)) → (∀ op ∈ ops, changesVar v op = true → op = .next v) →
    gotBy v ops out = (rest.map some ++ List.replicate (ops.countP (asksFor v)) none).take (ops.countP (asksFor v)) := by
  intro ops
  induction ops with
  | nil => intro W W' out c d rest ph hs hv ho; simp [gotBy]
  | cons op ops ih =>
    intro W W' out c d rest ph hs hv ho
    simp only [worldRun] at hs
    cases h1 : worldStep op W with
    | none => rw [h1] at hs; cases hs
    | some q =>
      obtain ⟨W1, out1⟩ := q
      rw [h1] at hs
      dsimp only at hs
      cases h2 : worldRun ops W1 with
      | none => rw [h2] at hs; cases hs
      | some q2 =>
        obtain ⟨W2, out2⟩ := q2
        rw [h2] at hs
        simp only [Option.map_some, Option.some.injEq, Prod.mk.injEq] at hs
        obtain ⟨rfl, rfl⟩ := hs
        have hlt := (List.getElem?_eq_some_iff.1 hv).1
        cases hc : changesVar v op with
        | true =>
          have := ho op (by simp) hc
          subst this
          have hheld : W.held v = some (.stream c d (some rest) ph) := by unfold World.held; rw [hv]
          have hcount : (Op.next v :: ops).countP (asksFor v) = ops.countP (asksFor v) + 1 := by
            rw [List.countP_cons_of_pos (by simp [asksFor])]
          rw [hcount]
          simp only [worldStep, hheld] at h1
          cases rest with
          | nil =>
            cases h1
            have := ih _ _ _ c d [] .ended h2 (List.getElem?_set_self hlt) (fun op hop => ho op (by simp [hop]))
            simp only [List.singleton_append, gotBy, if_true, List.map_nil, List.nil_append, List.replicate_succ, List.take_succ_cons] at this ⊢
            rw [this]
          | cons t ts =>
            cases h1
            have := ih _ _ _ c d ts .midway h2 (List.getElem?_set_self hlt) (fun op hop => ho op (by simp [hop]))
            simp only [List.singleton_append, gotBy, if_true, List.map_cons, List.cons_append, List.nil_append, List.take_succ_cons]
            have hk : ∀ k : Nat, List.take k (ts.map some ++ List.replicate (k + 1) none) = List.take k (ts.map some ++ List.replicate k none) := by
              intro k
              rw [List.replicate_succ', ← List.append_assoc, List.take_append_of_le_length (by simp)]
            rw [this, hk]
        | false =>
          have hv1 := step_keeps h1 hv hc
          have hih := ih W1 _ _ c d rest ph h2 hv1 (fun op hop => ho op (by simp [hop]))
          have hask : asksFor v op = false := by
            cases op with
            | next w => exact hc
            | _ => rfl
          rw [List.countP_cons_of_neg (by simp [hask])]
          rcases step_out h1 with ⟨w, o, rfl, rfl⟩ | ⟨hno, rfl⟩
          · have hwv : w ≠ v := by simpa [changesVar] using hc
            simp only [List.singleton_append, gotBy, if_neg hwv]
            exact hih
          · rw [List.nil_append, gotBy_other hno]
            exact hih

/-- A stream taken from an analyzer gives the tokens of its own text, one for each time it is asked, and then no more, whatever is done meanwhile with the analyzer, which may be given up, and with other streams. -/
theorem c96_own_tokens_partial (before after : List Op) (a field : Nat) (text : List Byte) (l : List Token) (W0 W : World) (out0 out : List (Option Token)) (c : Nat) (d : Desc)
    (h0 : worldRun before [] = some (W0, out0)) (ha : W0.held a = some (.analyzer c d)) (ht : d.tokens text = .ok l)
    (h1 : worldRun after (W0 ++ [some (.stream 1 d (some l) .fresh)]) = some (W, out)) (hc : ∀ op ∈ after, changesVar W0.length op = true → op = .next W0.length) :
    ∃ N p, (∀ n, N ≤ n → run n (before ++ .getTs a field text :: after) Prog.start = .ok (p, out0 ++ out)) ∧
      gotBy W0.length after out = (l.map some ++ List.replicate (after.countP (asksFor W0.length)) none).take (after.countP (asksFor W0.length)) := by
  have htok : tokensOf d text = some l := by unfold tokensOf; rw [ht]
  have hrun : ∀ (ops : List Op) (W1 W2 : World) (o1 o2 : List (Option Token)) (ops2 : List Op) (W3 : World), worldRun ops W1 = some (W2, o1) → worldRun ops2 W2 = some (W3, o2) → worldRun (ops ++ ops2) W1 = some (W3, o1 ++ o2) := by
    intro ops
    induction ops with
    | nil => intro W1 W2 o1 o2 ops2 W3 e1 e2; cases e1; exact e2
    | cons op ops ih =>
      intro W1 W2 o1 o2 ops2 W3 e1 e2
      simp only [List.cons_append, worldRun] at e1 ⊢
      cases hx : worldStep op W1 with
      | none => rw [hx] at e1; cases e1
      | some q =>
        rw [hx] at e1
        dsimp only at e1 ⊢
        cases hy : worldRun ops q.1 with
        | none => rw [hy] at e1; cases e1
        | some q2 =>
          rw [hy] at e1
          simp only [Option.map_some, Option.some.injEq, Prod.mk.injEq] at e1
          obtain ⟨rfl, rfl⟩ := e1
          rw [ih q.1 q2.1 q2.2 o2 ops2 W3 (by rw [hy]) e2]
          simp [List.append_assoc]
  have hs : worldRun (.getTs a field text :: after) W0 = some (W, out) := by
    simp only [worldRun, worldStep, ha, htok, Option.map_some]
    rw [h1]; rfl
  obtain ⟨N, p, hp, _⟩ := c96_streams_partial _ _ _ (hrun before [] W0 out0 out _ W h0 hs)
  exact ⟨N, p, hp, world_got W0.length after _ W out 1 d l .fresh h1 (by simp) hc⟩

/-! ### A program -/

def wsz : List Byte → Res (List Token) := (Tokenizer.ws ascii).tokens

/-- An analyzer of words in lower case without "a", with hyphens; a per-field analyzer over it, with words as they are for the field 7. Two streams are asked in turns, the analyzers are given up midway. -/
def streamOps : List Op :=
  [.tokenizer wsz, .wrap (.plain (.lower ascii)) 0, .wrap (.stop [[97]]) 1, .wrap (.mapping [([98], [99])]) 2, .wrap (.hyphen ascii.isAlpha) 3, .analyzer 4, .ref 5,
   .perField 5, .tokenizer wsz, .analyzer 7, .addField 6 7 8,
   .getTs 6 0 [65, 32, 66, 45, 68], .getTs 6 7 [65, 32, 66], .next 9, .next 10, .deref 6, .deref 5, .next 9, .next 10, .next 9, .next 10, .next 9,
   .clone 9, .reset 9 [120], .next 9, .next 11, .deref 9, .deref 10, .deref 11]

theorem stream_runs : (worldRun streamOps []).isSome = true := by decide +kernel

example : ∃ W out, worldRun streamOps [] = some (W, out) ∧ (∀ w ∈ W, w.isNone = true) ∧
    out = [some ⟨[99, 100], 2, 5, 2⟩, some ⟨[65], 0, 1, 1⟩, some ⟨[99], 2, 3, 0⟩, some ⟨[66], 2, 3, 1⟩, some ⟨[100], 4, 5, 1⟩, none, none, some ⟨[120], 0, 1, 1⟩, none] := by
  exact ⟨((worldRun streamOps []).get stream_runs).1, ((worldRun streamOps []).get stream_runs).2, (Option.some_get stream_runs).symm, by decide +kernel, by decide +kernel⟩

/-- Two streams of one analyzer, which is given up midway; the one in variable 2 is asked three times. -/
def streamAfter : List Op := [.getTs 1 0 [99], .next 2, .next 3, .deref 1, .next 2, .next 3, .deref 3, .next 2]
def streamWorld : World := [none, some (.analyzer 1 ⟨wsz, []⟩)]
theorem streamAfter_runs : (worldRun streamAfter (streamWorld ++ [some (.stream 1 ⟨wsz, []⟩ (some [⟨[97], 0, 1, 1⟩, ⟨[98], 2, 3, 1⟩]) .fresh)])).isSome = true := by decide +kernel

example : worldRun [.tokenizer wsz, .analyzer 0] [] = some (streamWorld, []) ∧ streamWorld.held 1 = some (.analyzer 1 ⟨wsz, []⟩) ∧ (Desc.mk wsz []).tokens [97, 32, 98] = .ok [⟨[97], 0, 1, 1⟩, ⟨[98], 2, 3, 1⟩] ∧
    (∀ op ∈ streamAfter, changesVar 2 op = true → asksFor 2 op = true) ∧ streamAfter.countP (asksFor 2) = 3 := ⟨rfl, rfl, by decide +kernel, by decide +kernel, by decide +kernel⟩

/-! ### Where it does not hold -/

def endsUb {α : Type} : Res α → Bool
  | .ub => true
  | _ => false

/-- A hyphen filter that is copied within a token keeps the address of the token of the original: the original is given up, the copy asked. -/
def hyCopyOps : List Op := [.tokenizer wsz, .wrap (.hyphen ascii.isAlpha) 0, .reset 1 [97, 45, 98], .next 1, .clone 1, .deref 1, .next 2]

theorem c96_hyphen_copy_ub : endsUb (run 20 hyCopyOps Prog.start) = true ∧ endsUb (run 20 (hyCopyOps.take 6) Prog.start) = false := by decide +kernel

/-- The same, with the original still there: what the program reads of the original changes. It asks the original for "b", then asks the copy, and reads again what the original gave. -/
def hyShareOps : List Op := [.tokenizer wsz, .wrap (.hyphen ascii.isAlpha) 0, .reset 1 [97, 45, 98], .next 1, .clone 1]

/-- What the token of the stream in variable `v` is now. -/
def tokenSeen (n : Nat) (ops : List Op) (r : Nat) : Option Token :=
  match run n ops Prog.start with
  | .ok q => match tokenAt q.1.heap r with | .ok t => some t | _ => none
  | _ => none

theorem c96_hyphen_copy_writes : tokenSeen 20 hyShareOps 0 = some ⟨[97, 98], 0, 3, 1⟩ ∧ tokenSeen 20 (hyShareOps ++ [.next 2]) 0 = some ⟨[97], 0, 1, 0⟩ := by decide +kernel

/-- A hyphen filter that is reset within a token gives the rest of it in the next text (C64). -/
theorem c96_hyphen_reset : ∃ p, run 20 [.tokenizer wsz, .wrap (.hyphen ascii.isAlpha) 0, .reset 1 [97, 45, 98], .next 1, .reset 1 [120], .next 1] Prog.start =
    .ok (p, [some ⟨[97, 98], 0, 3, 1⟩, some ⟨[97], 0, 1, 0⟩]) := ⟨_, rfl⟩

/-- A stem filter for an algorithm that does not exist is made; to ask it for a token is undefined. -/
theorem c96_stemmer_ub : endsUb (run 20 [.tokenizer wsz, .wrap (.plain (.stem none)) 0, .reset 1 [97], .next 1] Prog.start) = true ∧
    endsUb (run 20 [.tokenizer wsz, .wrap (.plain (.stem none)) 0, .reset 1 [97]] Prog.start) = false := by decide +kernel

/-- Streams of an analyzer have one table of mappings: to add a mapping to one of them, while another is in use, makes the other undefined. -/
theorem c96_mapping_late_ub : endsUb (run 20 [.tokenizer wsz, .wrap (.mapping [([98], [99])]) 0, .clone 1, .reset 2 [98], .addMapping 1 [97] [99], .next 2] Prog.start) = true ∧
    endsUb (run 20 [.tokenizer wsz, .wrap (.mapping [([98], [99])]) 0, .clone 1, .reset 2 [98], .addMapping 1 [97] [99]] Prog.start) = false := by decide +kernel

/-- The mapping is then in all of them: "a" becomes "c" in a stream that was copied before the mapping was added to the other. -/
theorem c96_mapping_shared : (match run 20 [.tokenizer wsz, .wrap (.mapping [([98], [99])]) 0, .clone 1, .addMapping 1 [97] [99], .reset 2 [97], .next 2] Prog.start with | .ok q => q.2 | _ => []) =
    [some ⟨[99], 0, 1, 1⟩] := by decide +kernel

#print axioms c96_streams_partial
#print axioms c96_own_tokens_partial
#print axioms c96_hyphen_copy_ub
#print axioms c96_hyphen_copy_writes
#print axioms c96_hyphen_reset
#print axioms c96_stemmer_ub
#print axioms c96_mapping_late_ub
#print axioms c96_mapping_shared
end Ferret.Props
