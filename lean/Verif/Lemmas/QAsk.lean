import Verif.Spec.QPlaces
import Verif.Lemmas.QDrivePhrase

/-!
What words, phrases and patterns of a query come to.
-/

namespace Ferret.QP
open Ferret.Spec

/-! ### Several fields -/

theorem fldsLoop_each {α : Type} {g : Fld → α → Res (Option Qry × α)} (P : α → Prop) (h : Fld → Option Qry) :
    ∀ (F : List Fld) (a : α) (cs : List (Occ × Qry)), (∀ f ∈ F, ∀ a, P a → ∃ a', g f a = .ok (h f, a') ∧ P a') → P a →
      fldsLoop g F a cs = .ok (cs ++ (F.filterMap h).map (fun q => (Occ.should, q))) := by
  intro F
  induction F with
  | nil => intro a cs _ _; simp [fldsLoop]
  | cons f F ih =>
    intro a cs hg ha
    obtain ⟨a', e, ha'⟩ := hg f List.mem_cons_self a ha
    simp only [fldsLoop, e, Res.ok_bind]
    rw [ih a' _ (fun f hf => hg f (List.mem_cons_of_mem _ hf)) ha']
    cases hq : h f <;> simp [hq]

/-- The query for several fields, if that for each does not depend on the others. -/
theorem flds_each {α : Type} {g : Fld → α → Res (Option Qry × α)} (P : α → Prop) (h : Fld → Option Qry) {F : List Fld}
    {a : α} (hg : ∀ f ∈ F, ∀ a, P a → ∃ a', g f a = .ok (h f, a') ∧ P a') (ha : P a) (h2 : 2 ≤ F.length) :
    flds F g a = .ok (anyOf (F.map h)) := by
  match F, h2 with
  | f :: f' :: F, _ =>
    simp only [flds]
    rw [fldsLoop_each P h _ _ _ hg ha, Res.ok_bind]
    simp only [List.nil_append, anyOf, List.filterMap_map, Function.id_comp]
    cases e : (f :: f' :: F).filterMap h with
    | nil => simp
    | cons q r => simp

theorem flds_single {α : Type} {g : Fld → α → Res (Option Qry × α)} {f : Fld} {a : α} {q : Option Qry} {a' : α}
    (h : g f a = .ok (q, a')) : flds [f] g a = .ok q := by
  simp only [flds, h]; rfl

/-- The result of a computation that has one. -/
def okVal : Res (Option Qry) → Option Qry
  | .ok q => q
  | _ => none

theorem lang_leaf_okVal (cfg : Cfg) (F : List Fld) (l : QLeaf) : (lang cfg).leaf F l = okVal (leafQ cfg F l) := by
  simp only [lang]
  cases leafQ cfg F l <;> rfl

theorem flds_apart {α : Type} {g : Fld → α → Res (Option Qry × α)} (P : α → Prop) {F : List Fld} {a : α} (h0 : P a)
    (hg : ∀ f ∈ F, ∃ q, ∀ a, P a → ∃ a', g f a = .ok (q, a') ∧ P a') (h2 : 2 ≤ F.length) :
    flds F g a = .ok (anyOf (F.map (fun f => okVal (flds [f] g a)))) := by
  refine flds_each P _ (fun f hf a' ha' => ?_) h0 h2
  obtain ⟨q, hq⟩ := hg f hf
  obtain ⟨b, e, hb⟩ := hq a' ha'
  obtain ⟨b0, e0, -⟩ := hq a h0
  rw [flds_single e0]
  exact ⟨b, e, hb⟩

/-- A pattern or a bound as a field sees it. -/
def seen (cfg : Cfg) (f : Fld) (w : QWord) : QWord := if lowers cfg f then w.map cfg.lower else w

theorem seen_seen {cfg : Cfg} (hlow : ∀ c, cfg.lower (cfg.lower c) = cfg.lower c) {f g : Fld}
    (hfg : lowers cfg f = lowers cfg g) (w : QWord) : seen cfg g (seen cfg f w) = seen cfg g w := by
  unfold seen
  rw [hfg]
  split
  · rw [List.map_map]; exact List.map_congr_left (fun c _ => hlow c)
  · rfl

theorem seen_length (cfg : Cfg) (f : Fld) (w : QWord) : (seen cfg f w).length = w.length := by
  unfold seen; split <;> simp

/-- The query for a pattern, as the field sees it. -/
def patternQ (f : Fld) (p : QWord) : Qry :=
  if p = ['*'] then .all
  else if p.getLast? = some '*' ∧ ¬ p.dropLast.any (fun c => c == '*' || c == '?') then .pre f p.dropLast
  else .wild f p

theorem getWildQ_eq {cfg : Cfg} {f : Fld} {w : QWord} (h : w.length ≤ 253) :
    getWildQ cfg 0 false f w = .ok (some (patternQ f (seen cfg f w)), seen cfg f w) := by
  have step : ∀ pat : List Char, (if pat = ['*'] then (pure (some .all, pat) : Res (Option Qry × List Char))
      else if pat.getLast? = some '*' ∧ ¬ pat.dropLast.any (fun c => c == '*' || c == '?') then
        pure (some (.pre f pat.dropLast), pat)
      else pure (some (.wild f pat), pat)) = .ok (some (patternQ f pat), pat) := by
    intro pat
    unfold patternQ
    split
    · rfl
    split <;> rfl
  unfold getWildQ seen
  by_cases hl : lowers cfg f = true
  · rw [if_pos hl, if_pos hl, lowerStr_ok h]
    exact step _
  · rw [if_neg hl, if_neg hl]
    exact step _

theorem lowered_seen (cfg : Cfg) (f : Fld) (b : Bound) : lowered cfg f b = b.map (fun x => (seen cfg f x.1, x.2)) := by
  unfold lowered seen
  split <;> cases b <;> rfl

/-- Ranges in several fields. -/
theorem range_apart {cfg : Cfg} (hlow : ∀ c, cfg.lower (cfg.lower c) = cfg.lower c) {incLo incHi : Bool}
    {lo hi : Bound} (h1 : BoundOk lo) (h2 : BoundOk hi) {F : List Fld}
    (hF : ∀ f ∈ F, ∀ g ∈ F, lowers cfg f = lowers cfg g) (hlen : 2 ≤ F.length)
    (hok : ∀ f ∈ F, ∃ q, flds [f] (rangeIn cfg 0 incLo incHi) (lo, hi) = .ok q) :
    flds F (rangeIn cfg 0 incLo incHi) (lo, hi) =
      .ok (anyOf (F.map (fun f => okVal (flds [f] (rangeIn cfg 0 incLo incHi) (lo, hi))))) := by
  refine flds_apart (fun a => (BoundOk a.1 ∧ BoundOk a.2) ∧
    ∀ f ∈ F, lowered cfg f a.1 = lowered cfg f lo ∧ lowered cfg f a.2 = lowered cfg f hi) ⟨⟨h1, h2⟩, fun _ _ => ⟨rfl, rfl⟩⟩
    (fun f hf => ?_) hlen
  obtain ⟨q, hq⟩ := hok f hf
  simp only [flds] at hq
  obtain ⟨⟨q', l, h⟩, e1, e2⟩ := Res.bind_eq_ok.1 hq
  unfold rangeIn at e1
  rw [getRQ_eq 0 h1 h2] at e1
  obtain ⟨⟨q1, l1, h1'⟩, e3, e4⟩ := Res.bind_eq_ok.1 e1
  obtain ⟨rfl, rfl⟩ := rangeTail_bounds e3
  cases e4
  have hb : ∀ (b b' : Bound) (g : Fld), g ∈ F → lowered cfg g b' = lowered cfg g b →
      lowered cfg g (lowered cfg f b) = lowered cfg g b := by
    intro b b' g hg _
    rw [lowered_seen, lowered_seen, lowered_seen, Option.map_map]
    cases b with
    | none => rfl
    | some x => simp [seen_seen hlow (hF f hf g hg)]
  refine ⟨q', fun a ha => ⟨(lowered cfg f lo, lowered cfg f hi), ?_, ?_, ?_⟩⟩
  · unfold rangeIn
    rw [getRQ_eq 0 ha.1.1 ha.1.2, (ha.2 f hf).1, (ha.2 f hf).2, e3]
    rfl
  · exact ⟨lowered_ok h1, lowered_ok h2⟩
  · intro g hg
    exact ⟨hb lo lo g hg rfl, hb hi hi g hg rfl⟩

/-! ### Words -/

theorem phqAppend_snoc (ps : List (Nat × List (List Char))) (d : Nat) (ts : List (List Char)) (t : List Char) :
    phqAppend (ps ++ [(d, ts)]) t = ps ++ [(d, ts ++ [t])] := by
  unfold phqAppend
  rw [if_neg (by simp)]
  simp

theorem phqAdd_snoc (ps : List (Nat × List (List Char))) (x : Nat × List (List Char)) (t : List Char) (i : Nat) :
    phqAdd (ps ++ [x]) t i = (ps ++ [x]) ++ [(i, [t])] := by
  unfold phqAdd
  rw [if_neg (by simp)]

theorem absolute_append {α : Type} : ∀ (a b : List (Nat × α)) (n : Nat),
    absolute n (a ++ b) = absolute n a ++ absolute (n + (a.map Prod.fst).sum) b
  | [], b, n => by simp [absolute]
  | (d, x) :: a, b, n => by
    simp only [List.cons_append, absolute, absolute_append a b, List.map_cons, List.sum_cons]
    rw [Nat.add_assoc]

theorem oneByOne_append {α : Type} (a b : List (Nat × List α)) : oneByOne (a ++ b) = oneByOne a ++ oneByOne b := by
  simp [oneByOne]

theorem termLoop_spec : ∀ (ts : List (List Char × Nat)) (ps : List (Nat × List (List Char))) (d : Nat)
    (xs : List (List Char)) (slop : Int),
    oneByOne (absolute 0 (termLoop ts (ps ++ [(d, xs)]) slop).1) =
      oneByOne (absolute 0 (ps ++ [(d, xs)])) ++
        absolute ((ps.map Prod.fst).sum + d) (ts.map (fun p => (p.2, p.1))) ∧
    (termLoop ts (ps ++ [(d, xs)]) slop).2 = slop + (ts.filter (fun p => p.2 != 0)).length := by
  intro ts
  induction ts with
  | nil => intro ps d xs slop; simp [termLoop, absolute]
  | cons t ts ih =>
    intro ps d xs slop
    obtain ⟨t, i⟩ := t
    rw [termLoop]
    by_cases hi : i ≠ 0
    · rw [if_pos hi, phqAdd_snoc]
      obtain ⟨h1, h2⟩ := ih (ps ++ [(d, xs)]) i [t] (slop + 1)
      refine ⟨?_, ?_⟩
      · rw [h1, absolute_append, oneByOne_append]
        simp only [absolute, oneByOne, List.flatMap_cons, List.flatMap_nil, List.map_cons, List.map_nil,
          List.map_append, List.sum_append, List.sum_cons, List.sum_nil, List.append_nil, Nat.zero_add, Nat.add_zero,
          List.append_assoc, List.cons_append, List.nil_append]
      · rw [h2]
        simp [hi]
        omega
    · have hi0 : i = 0 := by omega
      subst hi0
      rw [if_neg (by simp), phqAppend_snoc]
      obtain ⟨h1, h2⟩ := ih ps d (xs ++ [t]) slop
      refine ⟨?_, ?_⟩
      · rw [h1, absolute_append, absolute_append, oneByOne_append, oneByOne_append]
        simp only [absolute, oneByOne, List.flatMap_cons, List.flatMap_nil, List.map_cons, List.map_nil,
          List.map_append, List.append_nil, Nat.zero_add, Nat.add_zero,
          List.append_assoc, List.cons_append, List.nil_append]
      · rw [h2]; simp

/-! ### Places of phrases -/

/-- The places that phrases as the parser builds them stand for. -/
def spread (ps : List (Nat × List (List Char))) : List (List QWord) :=
  ps.flatMap (fun p => List.replicate p.1 [] ++ [p.2])

/-- No bar behind a gap. -/
def barOk : Bool → List QSpot → Bool
  | _, [] => true
  | _, .next _ :: ss => barOk false ss
  | _, .gap :: ss => barOk true ss
  | g, .alt _ :: ss => !g && barOk g ss

theorem barOk_tame : ∀ (ss : List QSpot) (g : Bool) (x : List QTok),
    (∀ a b, x ++ (if g then [.sym '>'] else []) ++ ss.flatMap QSpot.written ≠ a ++ .sym '>' :: .sym '|' :: b) →
    barOk g ss = true
  | [], _, _, _ => rfl
  | .next w :: ss, g, x, h => by
    rw [barOk]
    refine barOk_tame ss false (x ++ (if g then [.sym '>'] else []) ++ [.word w]) (fun a b e => h a b ?_)
    rw [← e]
    simp [QSpot.written]
  | .gap :: ss, g, x, h => by
    rw [barOk]
    refine barOk_tame ss true (x ++ (if g then [.sym '>'] else []) ++ [.sym '<']) (fun a b e => h a b ?_)
    rw [← e]
    simp [QSpot.written]
  | .alt w :: ss, g, x, h => by
    rw [barOk]
    cases g with
    | true =>
      refine absurd ?_ (h x (.word w :: ss.flatMap QSpot.written))
      simp [QSpot.written]
    | false =>
      refine barOk_tame ss false (x ++ [.sym '|', .word w]) (fun a b e => h a b ?_)
      rw [← e]
      simp [QSpot.written]

theorem placesRest_spread : ∀ (ss : List QSpot) (ph ph' : Ph) (pre : List (List QWord)) (g : Bool),
    phraseRest ph ss = .ok ph' → barOk g ss = true → (g = false → ph.inc = 0 ∧ ph.ps ≠ []) → 
    (∀ p ∈ ph.ps, p.2 ≠ []) →
    placesRest (pre ++ spread ph.ps ++ List.replicate ph.inc []) ss =
      pre ++ spread ph'.ps ++ List.replicate ph'.inc [] ∧ (∀ p ∈ ph'.ps, p.2 ≠ [])
  | [], ph, ph', pre, g, e, _, _, hne => by cases e; exact ⟨rfl, hne⟩
  | .next w :: ss, ph, ph', pre, g, e, hb, hg, hne => by
    have := placesRest_spread ss (phAdd ph (some w)) ph' pre false e hb (fun _ => ⟨rfl, by simp [phAdd]⟩) (by
      intro p hp
      simp only [phAdd, List.mem_append, List.mem_singleton] at hp
      rcases hp with hp | rfl
      · exact hne p hp
      · simp)
    refine ⟨?_, this.2⟩
    rw [← this.1, placesRest]
    congr 1
    simp [phAdd, spread]
  | .gap :: ss, ph, ph', pre, g, e, hb, hg, hne => by
    have := placesRest_spread ss (phAdd ph none) ph' pre true e hb (fun h => by cases h) hne
    refine ⟨?_, this.2⟩
    rw [← this.1, placesRest]
    congr 1
    simp [phAdd, List.replicate_succ']
  | .alt w :: ss, ph, ph', pre, g, e, hb, hg, hne => by
    rw [barOk, Bool.and_eq_true] at hb
    have hg0 : g = false := by simpa using hb.1
    subst hg0
    obtain ⟨h1, h2⟩ := hg rfl
    obtain ⟨ps, inc⟩ := ph
    simp only at h1 h2 hne
    subst h1
    rcases List.eq_nil_or_concat ps with rfl | ⟨ps, ⟨d, ws⟩, rfl⟩
    · exact absurd rfl h2
    have em : phMulti ⟨ps ++ [(d, ws)], 0⟩ w = .ok ⟨ps ++ [(d, ws ++ [w])], 0⟩ := by
      simp [phMulti]
    rw [List.concat_eq_append] at e hne ⊢
    simp only [phraseRest, em, Res.ok_bind] at e
    have := placesRest_spread ss _ ph' pre false e hb.2 (fun _ => ⟨rfl, by simp⟩) (by
      intro p hp
      simp only [List.mem_append, List.mem_singleton] at hp
      rcases hp with hp | rfl
      · exact hne p (List.mem_append_left _ hp)
      · simp)
    refine ⟨?_, this.2⟩
    rw [← this.1, placesRest]
    congr 1
    simp only [spread, List.flatMap_append, List.flatMap_cons, List.flatMap_nil, List.append_nil, List.replicate_zero]
    rw [← List.append_assoc, ← List.append_assoc, List.dropLast_concat, List.getLast?_concat]
    simp

/-- The token of a word. -/
def firstTok (cfg : Cfg) (f : Fld) (w : QWord) : Option (List Char) := (cfg.toks f w).head?.map Prod.fst

theorem spotMulti_added (cfg : Cfg) (f : Fld) : ∀ (ws : List (List Char)) (inc d : Nat)
    (ps : List (Nat × List (List Char))) (xs : List (List Char)),
    spotMulti cfg f ws true inc (ps ++ [(d, xs)]) = (inc, ps ++ [(d, xs ++ ws.filterMap (firstTok cfg f))])
  | [], inc, d, ps, xs => by simp [spotMulti]
  | w :: ws, inc, d, ps, xs => by
    rw [spotMulti]
    cases e : cfg.toks f w with
    | nil =>
      have : firstTok cfg f w = none := by simp [firstTok, e]
      simp only [spotMulti_added cfg f ws, List.filterMap_cons, this]
    | cons t r =>
      obtain ⟨t, i⟩ := t
      have : firstTok cfg f w = some t := by simp [firstTok, e]
      simp only [Bool.not_true, Bool.false_eq_true, if_false, phqAppend_snoc, spotMulti_added cfg f ws,
        List.filterMap_cons, this, List.append_assoc, List.singleton_append]

theorem spotMulti_spec (cfg : Cfg) (f : Fld) : ∀ (ws : List (List Char)) (inc : Nat)
    (ps : List (Nat × List (List Char))), inc ≠ 0 →
    spotMulti cfg f ws false inc ps = (if ws.filterMap (firstTok cfg f) = [] then (inc, ps)
      else (0, ps ++ [(if ps.isEmpty then 0 else inc, ws.filterMap (firstTok cfg f))]))
  | [], inc, ps, _ => by simp [spotMulti]
  | w :: ws, inc, ps, hi => by
    rw [spotMulti]
    cases e : cfg.toks f w with
    | nil =>
      have : firstTok cfg f w = none := by simp [firstTok, e]
      simp only [spotMulti_spec cfg f ws inc ps hi, List.filterMap_cons, this]
    | cons t r =>
      obtain ⟨t, i⟩ := t
      have : firstTok cfg f w = some t := by simp [firstTok, e]
      have hp : phqAdd ps t inc = ps ++ [(if ps.isEmpty then 0 else inc, [t])] := rfl
      simp only [Bool.not_false, if_true, if_pos hi, hp, spotMulti_added cfg f ws,
        List.filterMap_cons, this, List.singleton_append]
      exact (if_neg (List.cons_ne_nil _ _)).symm

/-- A word gives at most one token, which stands at a place of its own. -/
def OneToken (cfg : Cfg) (f : Fld) (w : QWord) : Prop := cfg.toks f w = [] ∨ ∃ t i, cfg.toks f w = [(t, i)] ∧ i ≠ 0

/-- One round of the loop over places. -/
theorem spots_cons {cfg : Cfg} {f : Fld} {p : Nat} {ws : List (List Char)} {rest : List (Nat × List (List Char))}
    {inc : Nat} {out : List (Nat × List (List Char))} {slop : Int} (hw : ∀ w ∈ ws, OneToken cfg f w) :
    spots cfg f ((p, ws) :: rest) inc out slop =
      if ws.filterMap (firstTok cfg f) = [] then
        spots cfg f rest (inc + p + 1) out (if inc ≠ 0 then slop + 1 else slop)
      else spots cfg f rest 0 (out ++ [(if out.isEmpty then 0 else inc + p + 1, ws.filterMap (firstTok cfg f))])
        (if inc ≠ 0 then slop + 1 else slop) := by
  have hi : inc + p + 1 ≠ 0 := by omega
  have multi : ∀ ws : List (List Char),
      (let (inc', ps) := spotMulti cfg f ws false (inc + p + 1) out
       spots cfg f rest inc' ps (if inc ≠ 0 then slop + 1 else slop)) =
      if ws.filterMap (firstTok cfg f) = [] then
        spots cfg f rest (inc + p + 1) out (if inc ≠ 0 then slop + 1 else slop)
      else spots cfg f rest 0 (out ++ [(if out.isEmpty then 0 else inc + p + 1, ws.filterMap (firstTok cfg f))])
        (if inc ≠ 0 then slop + 1 else slop) := by
    intro ws
    rw [spotMulti_spec cfg f ws _ out hi]
    by_cases hk : ws.filterMap (firstTok cfg f) = []
    · rw [if_pos hk, if_pos hk]
    · rw [if_neg hk, if_neg hk]
  match ws with
  | [] =>
    rw [spots]
    · exact multi []
    · simp
  | [w] =>
    rw [spots]
    simp only []
    rcases hw w (by simp) with e | ⟨t, i, e, hi'⟩
    · have : firstTok cfg f w = none := by simp [firstTok, e]
      simp [e, spotLoop, this]
    · have : firstTok cfg f w = some t := by simp [firstTok, e]
      rw [e, spotLoop, if_pos hi', spotLoop, if_pos hi]
      simp [this, phqAdd]
  | w :: w' :: ws =>
    rw [spots]
    · exact multi (w :: w' :: ws)
    · simp

/-- The places lost, in the terms of the parser. -/
def lostIn (cfg : Cfg) (f : Fld) : List (Nat × List (List Char)) → Nat
  | [] => 0
  | (_, ws) :: r => (if ws.filterMap (firstTok cfg f) = [] ∧ r ≠ [] then 1 else 0) + lostIn cfg f r

theorem placesKept_append {α : Type} (tok : QWord → Option α) : ∀ (a b : List (List QWord)) (i : Nat),
    placesKept tok i (a ++ b) = placesKept tok i a ++ placesKept tok (i + a.length) b
  | [], b, i => by simp [placesKept]
  | p :: a, b, i => by
    simp only [List.cons_append, placesKept, placesKept_append tok a b, List.append_assoc, List.length_cons]
    rw [show i + 1 + a.length = i + (a.length + 1) by omega]

theorem placesKept_gaps {α : Type} (tok : QWord → Option α) : ∀ (n i : Nat),
    placesKept tok i (List.replicate n []) = []
  | 0, i => rfl
  | n + 1, i => by simp [List.replicate_succ, placesKept, placesKept_gaps tok n]

theorem spread_cons (p : Nat) (ws : List (List Char)) (rest : List (Nat × List (List Char))) :
    spread ((p, ws) :: rest) = List.replicate p [] ++ (ws :: spread rest) := by simp [spread]

theorem kept_cons (cfg : Cfg) (f : Fld) (p : Nat) (ws : List (List Char)) (rest : List (Nat × List (List Char))) (i : Nat) :
    placesKept (firstTok cfg f) i (spread ((p, ws) :: rest)) =
      (if ws.filterMap (firstTok cfg f) = [] then [] else [(i + p, ws.filterMap (firstTok cfg f))]) ++
        placesKept (firstTok cfg f) (i + p + 1) (spread rest) := by
  rw [spread_cons, placesKept_append, placesKept_gaps, List.nil_append, List.length_replicate, placesKept]
  congr 1
  cases h : ws.filterMap (firstTok cfg f) <;> simp

/-- The loop over places behind a place that is kept. -/
theorem spots_behind {cfg : Cfg} {f : Fld} : ∀ (rest : List (Nat × List (List Char))) (inc : Nat)
    (out : List (Nat × List (List Char))) (slop : Int) (L : Nat), out ≠ [] →
    (∀ p ∈ rest, ∀ w ∈ p.2, OneToken cfg f w) →
    ∃ new, spots cfg f rest inc out slop =
        (out ++ new, slop + (if inc ≠ 0 ∧ rest ≠ [] then 1 else 0 : Nat) + lostIn cfg f rest) ∧
      absolute L new = placesKept (firstTok cfg f) (L + inc + 1) (spread rest)
  | [], inc, out, slop, L, _, _ => ⟨[], by simp [spots, lostIn], rfl⟩
  | (p, ws) :: rest, inc, out, slop, L, ho, hw => by
    rw [spots_cons (hw (p, ws) List.mem_cons_self), kept_cons]
    have hout : out.isEmpty = false := by cases out <;> simp at ho ⊢
    have hslop : (if inc ≠ 0 then slop + 1 else slop) = slop + (if inc ≠ 0 ∧ (p, ws) :: rest ≠ [] then 1 else 0 : Nat) := by
      by_cases hi : inc = 0 <;> simp [hi]
    by_cases hk : ws.filterMap (firstTok cfg f) = []
    · rw [if_pos hk, if_pos hk]
      obtain ⟨new, e1, e2⟩ := spots_behind rest (inc + p + 1) out (if inc ≠ 0 then slop + 1 else slop) L ho
        (fun q hq => hw q (List.mem_cons_of_mem _ hq))
      refine ⟨new, ?_, ?_⟩
      · rw [e1, hslop, lostIn]
        simp only [hk, true_and]
        congr 1
        by_cases hr : rest = [] <;> simp [hr] <;> omega
      · rw [e2, List.nil_append]
        congr 1
        omega
    · rw [if_neg hk, if_neg hk]
      simp only [hout, Bool.false_eq_true, if_false]
      obtain ⟨new, e1, e2⟩ := spots_behind rest 0 (out ++ [(inc + p + 1, ws.filterMap (firstTok cfg f))])
        (if inc ≠ 0 then slop + 1 else slop) (L + (inc + p + 1)) (by simp) (fun q hq => hw q (List.mem_cons_of_mem _ hq))
      refine ⟨(inc + p + 1, ws.filterMap (firstTok cfg f)) :: new, ?_, ?_⟩
      · rw [e1, hslop, lostIn]
        simp [hk]
      · rw [absolute, e2, List.singleton_append]
        congr 2 <;> omega

/-- The loop over places from the start. -/
theorem spots_start {cfg : Cfg} {f : Fld} : ∀ (rest : List (Nat × List (List Char))) (inc : Nat) (slop : Int) (i : Nat),
    (∀ p ∈ rest, ∀ w ∈ p.2, OneToken cfg f w) →
    ∃ new b, spots cfg f rest inc [] slop =
        (new, slop + (if inc ≠ 0 ∧ rest ≠ [] then 1 else 0 : Nat) + lostIn cfg f rest) ∧
      absolute b new = placesKept (firstTok cfg f) i (spread rest) ∧ (∀ x ∈ new.head?, x.1 = 0)
  | [], inc, slop, i, _ => ⟨[], 0, by simp [spots, lostIn], rfl, by simp⟩
  | (p, ws) :: rest, inc, slop, i, hw => by
    rw [spots_cons (hw (p, ws) List.mem_cons_self), kept_cons]
    have hslop : (if inc ≠ 0 then slop + 1 else slop) = slop + (if inc ≠ 0 ∧ (p, ws) :: rest ≠ [] then 1 else 0 : Nat) := by
      by_cases hi : inc = 0 <;> simp [hi]
    by_cases hk : ws.filterMap (firstTok cfg f) = []
    · rw [if_pos hk, if_pos hk]
      obtain ⟨new, b, e1, e2, e3⟩ := spots_start rest (inc + p + 1) (if inc ≠ 0 then slop + 1 else slop) (i + p + 1)
        (fun q hq => hw q (List.mem_cons_of_mem _ hq))
      refine ⟨new, b, ?_, ?_, e3⟩
      · rw [e1, hslop, lostIn]
        simp only [hk, true_and]
        congr 1
        by_cases hr : rest = [] <;> simp [hr] <;> omega
      · rw [e2, List.nil_append]
    · rw [if_neg hk, if_neg hk]
      simp only [List.isEmpty_nil, if_true, List.nil_append]
      obtain ⟨new, e1, e2⟩ := spots_behind rest 0 [(0, ws.filterMap (firstTok cfg f))]
        (if inc ≠ 0 then slop + 1 else slop) (i + p) (by simp) (fun q hq => hw q (List.mem_cons_of_mem _ hq))
      refine ⟨(0, ws.filterMap (firstTok cfg f)) :: new, i + p, ?_, ?_, by simp⟩
      · rw [e1, hslop, lostIn]
        simp [hk]
      · rw [absolute, Nat.add_zero, e2, List.singleton_append]

theorem lost_gaps {α : Type} (tok : QWord → Option α) (n : Nat) (ps : List (List QWord)) :
    placesLost tok (List.replicate n [] ++ ps) = placesLost tok ps := by
  induction n with
  | zero => rfl
  | succ n ih => simp [List.replicate_succ, placesLost, ih]

theorem lost_spread (cfg : Cfg) (f : Fld) (n : Nat) : ∀ (rest : List (Nat × List (List Char))),
    (∀ p ∈ rest, p.2 ≠ []) →
    placesLost (firstTok cfg f) (spread rest ++ List.replicate n []) = lostIn cfg f rest
  | [], _ => by
    have := lost_gaps (firstTok cfg f) n []
    simpa [spread, lostIn, placesLost] using this
  | (p, ws) :: rest, h => by
    have hws := h (p, ws) List.mem_cons_self
    rw [spread_cons, List.append_assoc, lost_gaps, List.cons_append, placesLost, lostIn,
      lost_spread cfg f n rest (fun q hq => h q (List.mem_cons_of_mem _ hq))]
    congr 1
    have : (spread rest ++ List.replicate n []).any (fun q => !q.isEmpty) = true ↔ rest ≠ [] := by
      cases rest with
      | nil => simp [spread]
      | cons q rest =>
        have := h q (List.mem_cons_of_mem _ List.mem_cons_self)
        obtain ⟨d, xs⟩ := q
        have hx : xs ≠ [] := this
        simp [spread, hx]
    by_cases h1 : ws.filterMap (firstTok cfg f) = []
    · by_cases h2 : rest ≠ []
      · rw [if_pos ⟨hws, h1, this.2 h2⟩, if_pos ⟨h1, h2⟩]
      · rw [if_neg (fun h => h2 (this.1 h.2.2)), if_neg (fun h => h2 h.2)]
    · rw [if_neg (fun h => h1 h.2.1), if_neg (fun h => h1 h.1)]

/-! ### The phrase of a leaf -/

theorem phFirst_ne (first : Option QWord) : ∀ p ∈ (phFirst first).ps, p.2 ≠ [] := by
  cases first <;> simp [phFirst]

theorem phrase_places {first : Option QWord} {ss : List QSpot} {slop : Option QWord} {ph : Ph}
    (ht : QTame (QLeaf.phrase first ss slop).written) (hp : phraseOf first ss = .ok ph) :
    ∃ pre, phrasePlaces first ss = List.replicate pre [] ++ spread ph.ps ++ List.replicate ph.inc [] ∧ ∀ p ∈ ph.ps, p.2 ≠ [] := by
  have hbar : ∀ a b, writtenFirst first ++ ss.flatMap QSpot.written ≠ a ++ .sym '>' :: .sym '|' :: b := by
    intro a b e
    refine ht.bar (.sym '"' :: a) (b ++ [.sym '"'] ++ writtenSlop slop) ?_
    simp only [QLeaf.written, List.append_assoc, List.cons_append, List.nil_append]
    rw [← List.append_assoc, e]
    simp
  cases first with
  | some w =>
    have := placesRest_spread ss (phFirst (some w)) ph [] false hp
      (barOk_tame ss false [.word w] (fun a b e => hbar a b (by rw [← e]; simp [writtenFirst])))
      (fun _ => ⟨rfl, by simp [phFirst]⟩) (phFirst_ne _)
    refine ⟨0, ?_, this.2⟩
    rw [List.replicate_zero, ← this.1]
    rfl
  | none =>
    have := placesRest_spread ss (phFirst none) ph [[]] true hp
      (barOk_tame ss true [.sym '<'] (fun a b e => hbar a b (by rw [← e]; simp [writtenFirst])))
      (fun h => by cases h) (phFirst_ne _)
    refine ⟨1, ?_, this.2⟩
    show _ = [[]] ++ _ ++ _
    rw [← this.1]
    rfl

theorem spread_written (ps : List (Nat × List (List Char))) (h : ∀ p ∈ ps, p.2 ≠ []) :
    (spread ps).filter (fun p => !p.isEmpty) = ps.map Prod.snd := by
  induction ps with
  | nil => rfl
  | cons p ps ih =>
    obtain ⟨d, ws⟩ := p
    have hw : ws ≠ [] := h (d, ws) List.mem_cons_self
    have hz : (List.replicate d ([] : List QWord)).filter (fun p => !p.isEmpty) = [] := by
      rw [List.filter_eq_nil_iff]
      intro x hx
      rw [List.eq_of_mem_replicate hx]
      simp
    rw [spread_cons, List.filter_append, hz, List.nil_append, List.filter_cons,
      ih (fun q hq => h q (List.mem_cons_of_mem _ hq))]
    simp [hw]

theorem phrase_written {first : Option QWord} {ss : List QSpot} {slop : Option QWord} {ph : Ph}
    (ht : QTame (QLeaf.phrase first ss slop).written) (hp : phraseOf first ss = .ok ph) :
    writtenPlaces first ss = ph.ps.map Prod.snd := by
  obtain ⟨pre, e, hne⟩ := phrase_places ht hp
  have hz : ∀ d : Nat, (List.replicate d ([] : List QWord)).filter (fun p => !p.isEmpty) = [] := by
    intro d
    rw [List.filter_eq_nil_iff]
    intro x hx
    rw [List.eq_of_mem_replicate hx]
    simp
  rw [writtenPlaces, e, List.filter_append, List.filter_append, hz, hz, spread_written _ hne]
  simp

theorem phrase_tame_ok {first : Option QWord} {ss : List QSpot} {slop : Option QWord}
    (ht : QTame (QLeaf.phrase first ss slop).written) : ∃ ph, phraseOf first ss = .ok ph := by
  refine phraseOf_ok first ss.length ss (Nat.le_refl _) (fun a b e => ?_)
  refine ht.bar (.sym '"' :: a) (b ++ [.sym '"'] ++ writtenSlop slop) ?_
  simp only [QLeaf.written, List.append_assoc, List.cons_append, List.nil_append]
  rw [← List.append_assoc, e]
  simp

theorem phrase_slop {first : Option QWord} {ss : List QSpot} {slop : Option QWord}
    (ht : QTame (QLeaf.phrase first ss slop).written) : ∀ w, slop = some w → (scanInt w).isSome := by
  rintro w rfl
  refine scanInt_number (ht.slop (.sym '"' :: (writtenFirst first ++ ss.flatMap QSpot.written)) w [] ?_)
  simp [QLeaf.written, writtenSlop]

theorem scanInt_value {w : QWord} {n : Int} (h : slopValue (some w) n) : scanInt w = some n := by
  obtain ⟨sg, ds, rfl, hn, hd, hdig, hlen⟩ := h
  obtain ⟨d, ds, rfl⟩ : ∃ d ds', ds = d :: ds' := by
    cases ds with
    | nil => exact absurd rfl hd
    | cons d ds => exact ⟨d, ds, rfl⟩
  have hv : ¬ 2147483647 < digitsValue (d :: ds) := by
    have h1 := digitsValue_lt (d :: ds) 0 hdig
    have h2 : 10 ^ (d :: ds).length ≤ 10 ^ 9 := Nat.pow_le_pow_right (by omega) hlen
    unfold digitsValue
    simp only [Nat.zero_add, Nat.one_mul] at h1
    omega
  have hdd := hdig d (by simp)
  have hnot : d ≠ '-' ∧ d ≠ '+' ∧ d.isWhitespace = false := by
    simp only [Char.isDigit, Bool.and_eq_true, decide_eq_true_eq] at hdd
    have h1 : 48 ≤ d.val.toNat := hdd.1
    refine ⟨?_, ?_, ?_⟩
    · rintro rfl; revert h1; decide
    · rintro rfl; revert h1; decide
    · simp only [Char.isWhitespace, Bool.or_eq_false_iff, decide_eq_false_iff_not]
      refine ⟨⟨⟨?_, ?_⟩, ?_⟩, ?_⟩ <;> rintro rfl <;> revert h1 <;> decide
  obtain ⟨n1, n2, n3⟩ := hnot
  have hdv : digitsValue (d :: ds) = decimal (d :: ds) := rfl
  unfold scanInt
  rcases hn with ⟨rfl | rfl, rfl⟩ | ⟨rfl, rfl⟩
  · rw [List.nil_append, List.dropWhile_cons_of_neg (by simp [n3])]
    split
    rename_i neg s e
    split at e
    · rename_i e2; cases e2; exact absurd rfl n1
    · rename_i e2; cases e2; exact absurd rfl n2
    · cases e
      simp only []
      rw [digits_all hdig, if_neg (by simp [hv]), hdv]
      simp
  · simp only [List.cons_append, List.nil_append]
    rw [List.dropWhile_cons_of_neg (by decide)]
    simp only []
    rw [digits_all hdig, if_neg (by simp [hv]), hdv]
    simp
  · simp only [List.cons_append, List.nil_append]
    rw [List.dropWhile_cons_of_neg (by decide)]
    simp only []
    rw [digits_all hdig, if_neg (by simp [hv]), hdv]
    simp

end Ferret.QP
