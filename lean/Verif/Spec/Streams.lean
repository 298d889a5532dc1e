import Verif.Model.TokenStreams

/-! What programs may do with analyzers and streams of tokens, and what they see (C96). No memory here: a stream is what it is made of and the tokens it is yet to give. -/

namespace Ferret.Spec
open Ferret Ferret.Ana Ferret.TS

/-- A tokenizer and the filters over it, in order. -/
structure Desc where
  z : List Byte → Res (List Token)
  filters : List Filter

/-- The tokens of a text. -/
def Desc.tokens (d : Desc) (text : List Byte) : Res (List Token) := d.z text >>= filterAll d.filters

/-- A stream is asked for tokens for the first time, is being asked, or has said that there are no more. -/
inductive Phase where
  | fresh
  | midway
  | ended
deriving DecidableEq

/-- What a variable holds, with how many references it has to it. A stream that has no text yet has no tokens to give. -/
inductive Held where
  | stream (cnt : Nat) (d : Desc) (rest : Option (List Token)) (phase : Phase)
  | analyzer (cnt : Nat) (d : Desc)
  | perField (cnt : Nat) (dflt : Desc) (fields : List (Nat × Desc))

def Held.cnt : Held → Nat
  | .stream c _ _ _ => c
  | .analyzer c _ => c
  | .perField c _ _ => c

def Held.withCnt (c : Nat) : Held → Held
  | .stream _ d r p => .stream c d r p
  | .analyzer _ d => .analyzer c d
  | .perField _ d f => .perField c d f

/-- One reference less. -/
def Held.less (x : Held) : Option Held := if x.cnt = 1 then none else some (x.withCnt (x.cnt - 1))

/-- The variables; `none` for one that has given up or given away all its references. -/
abbrev World := List (Option Held)

/-- The filter that is made: there has to be a stemmer, and no mapping of nothing. What a compiled mapper maps is C53. -/
def meaning : Make → Option Filter
  | .plain (.lower L) => some (.lower L)
  | .plain (.mbLower L) => some (.mbLower L)
  | .plain (.stem (some f)) => some (.stem f)
  | .plain (.stem none) => none
  | .stop ws => some (.stop ws)
  | .mapping maps =>
    if maps.any (fun p => p.1.isEmpty) then none
    else
      match MultiMap.Mapper.compile ⟨maps.map fun p => ⟨p.1, p.2⟩, none⟩ with
      | .ok m => some (.map m)
      | _ => none
  | .hyphen p => some (.hyphen p)

def isHyphen : Filter → Bool
  | .hyphen _ => true
  | _ => false

/-- Streams with a hyphen filter are not to be copied or reset in the middle of the tokens. -/
def mayCopy (d : Desc) (ph : Phase) : Bool := decide (ph ≠ .midway) || d.filters.all (fun f => !isHyphen f)

def World.held (W : World) (v : Nat) : Option Held :=
  match W[v]? with
  | some (some x) => some x
  | _ => none

/-- The tokens, if the text has them. -/
def tokensOf (d : Desc) (text : List Byte) : Option (List Token) :=
  match d.tokens text with
  | .ok l => some l
  | _ => none

abbrev Seen := Option (World × List (Option Token))

/-- One step and what is printed: `none` when the program does what it must not. -/
def worldStep (op : Op) (W : World) : Seen :=
  match op with
  | .tokenizer z => some (W ++ [some (.stream 1 ⟨z, []⟩ none .fresh)], [])
  | .wrap f v =>
    match W.held v, meaning f with
    | some (.stream 1 d none .fresh), some flt => some (W.set v none ++ [some (.stream 1 ⟨d.z, d.filters ++ [flt]⟩ none .fresh)], [])
    | _, _ => none
  | .clone v =>
    match W.held v with
    | some (.stream _ d rest ph) => if mayCopy d ph then some (W ++ [some (.stream 1 d rest ph)], []) else none
    | _ => none
  | .reset v text =>
    match W.held v with
    | some (.stream c d _ ph) => if mayCopy d ph then (tokensOf d text).map fun l => (W.set v (some (.stream c d (some l) .fresh)), []) else none
    | _ => none
  | .next v =>
    match W.held v with
    | some (.stream c d (some []) _) => some (W.set v (some (.stream c d (some []) .ended)), [none])
    | some (.stream c d (some (t :: ts)) _) => some (W.set v (some (.stream c d (some ts) .midway)), [some t])
    | _ => none
  | .addMapping _ _ _ => none
  | .analyzer v =>
    match W.held v with
    | some (.stream 1 d _ ph) => if mayCopy d ph then some (W.set v none ++ [some (.analyzer 1 d)], []) else none
    | _ => none
  | .perField v =>
    match W.held v with
    | some (.analyzer c d) => some (W.set v (Held.analyzer c d).less ++ [some (.perField 1 d [])], [])
    | _ => none
  | .addField p f v =>
    match W.held p, W.held v with
    | some (.perField c d fields), some (.analyzer cv dv) => some ((W.set v (Held.analyzer cv dv).less).set p (some (.perField c d (assign f dv fields))), [])
    | _, _ => none
  | .getTs v f text =>
    match W.held v with
    | some (.analyzer _ d) => (tokensOf d text).map fun l => (W ++ [some (.stream 1 d (some l) .fresh)], [])
    | some (.perField _ d fields) =>
      let d := (lookup f fields).getD d
      (tokensOf d text).map fun l => (W ++ [some (.stream 1 d (some l) .fresh)], [])
    | _ => none
  | .ref v =>
    match W.held v with
    | some x => some (W.set v (some (x.withCnt (x.cnt + 1))), [])
    | none => none
  | .deref v =>
    match W.held v with
    | some x => some (W.set v x.less, [])
    | none => none

/-- A whole program, and all that it prints. -/
def worldRun : List Op → World → Seen
  | [], W => some (W, [])
  | op :: ops, W =>
    match worldStep op W with
    | some (W1, out) => (worldRun ops W1).map fun q => (q.1, out ++ q.2)
    | none => none

end Ferret.Spec
