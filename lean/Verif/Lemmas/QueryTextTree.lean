import Verif.Lemmas.QueryText

/-! The text of phrases, boolean queries and trees of queries. -/

namespace Ferret.QText

open Ferret.Spec
open Ferret.QP (Fld Occ)

variable {N : Type} {nm : Nums N}

/-! ### Phrases -/

/-- The bytes counted for the words of places. -/
def wordRoom (ps : List (Int × List (List Char))) : Nat := (ps.map fun y => (y.2.map fun w => w.length + 5).sum).sum

/-- The last place. -/
def lastPlace (last : Int) : List (Int × List (List Char)) → Int
  | [] => last
  | (p, _) :: ps => lastPlace p ps

theorem wordsGo_ok (cap : Nat) : ∀ (ws : List (List Char)) (txt : List Char), txt.length + (ws.map fun w => w.length + 1).sum ≤ cap →
    wordsGo ws ⟨cap, txt⟩ = .ok ⟨cap, txt ++ ws.flatMap (· ++ ['|'])⟩
  | [], txt, _ => by simp [wordsGo]
  | w :: ws, txt, h => by
    simp only [List.map_cons, List.sum_cons] at h
    rw [wordsGo, put_ok (by omega)]
    simp only [Res.ok_bind]
    rw [put_ok (by simp; omega)]
    simp only [Res.ok_bind]
    rw [wordsGo_ok cap ws _ (by simp; omega)]
    simp

theorem gapsGo_ok (cap : Nat) : ∀ (n : Nat) (txt : List Char), txt.length + 3 * n ≤ cap →
    gapsGo n ⟨cap, txt⟩ = .ok ⟨cap, txt ++ (List.replicate n "<> ".toList).flatten⟩
  | 0, txt, _ => by simp [gapsGo]
  | n + 1, txt, h => by
    have e : ("<> ".toList).length = 3 := rfl
    rw [gapsGo, put_ok (by rw [e]; omega)]
    simp only [Res.ok_bind]
    rw [gapsGo_ok cap n _ (by rw [List.length_append, e]; omega), List.replicate_succ]
    simp

theorem gaps_length (n : Nat) : ((List.replicate n "<> ".toList).flatten).length = 3 * n := by
  induction n with
  | zero => rfl
  | succ n ih =>
    rw [List.replicate_succ, List.flatten_cons, List.length_append, ih]
    have e : ("<> ".toList).length = 3 := rfl
    omega

/-- The words of a place and the blank behind them. -/
theorem place_ok {cap : Nat} {ws : List (List Char)} (hw : ws ≠ []) {txt : List Char} (h : txt.length + (ws.map fun w => w.length + 1).sum ≤ cap) :
    (wordsGo ws ⟨cap, txt⟩ >>= fun b => b.setLast ' ') = .ok ⟨cap, txt ++ joinedBy ['|'] ws ++ [' ']⟩ := by
  rw [wordsGo_ok cap ws txt h]
  simp only [Res.ok_bind]
  cases ws with
  | nil => exact absurd rfl hw
  | cons a as =>
    have := flat_bar (fun w : List Char => w) a as
    rw [List.map_id'] at this
    rw [this, ← List.append_assoc, setLast_ok]

theorem words_sum {ws : List (List Char)} (hw : ws ≠ []) :
    (joinedBy ['|'] ws).length + 5 ≤ (ws.map fun w => w.length + 5).sum ∧ (ws.map fun w => w.length + 1).sum = (joinedBy ['|'] ws).length + 1 := by
  have h5 := sum_add 5 ws
  have h1 := sum_add 1 ws
  have hj := joinedBy_length ws '|'
  have : 1 ≤ ws.length := by cases ws with
    | nil => exact absurd rfl hw
    | cons => simp
  omega

theorem lastPlace_ge : ∀ (ps : List (Int × List (List Char))) (last : Int), ps.Pairwise (fun a b => a.1 ≤ b.1) → (∀ y ∈ ps, last ≤ y.1) → last ≤ lastPlace last ps
  | [], last, _, _ => Int.le_refl _
  | (p, ws) :: ps, last, h, hl => by
    rw [List.pairwise_cons] at h
    exact Int.le_trans (hl (p, ws) (by simp)) (lastPlace_ge ps p h.2 h.1)

theorem placesGo_ok (cap : Nat) : ∀ (ps : List (Int × List (List Char))) (last : Int) (pre : List Char), ps.Pairwise (fun a b => a.1 ≤ b.1) → (∀ y ∈ ps, last ≤ y.1) →
    (∀ y ∈ ps, y.2 ≠ []) → pre.length + 1 + wordRoom ps + 3 * (lastPlace last ps - last).toNat ≤ cap →
    placesGo last ps ⟨cap, pre ++ [' ']⟩ = .ok ⟨cap, pre ++ placesText last ps ++ [' ']⟩ ∧
      (placesText last ps).length ≤ wordRoom ps + 3 * (lastPlace last ps - last).toNat
  | [], last, pre, _, _, _, _ => by simp [placesGo, placesText]
  | (p, ws) :: ps, last, pre, hs, hl, hw, h => by
    rw [List.pairwise_cons] at hs
    have hpl : last ≤ p := hl (p, ws) (by simp)
    have hge := lastPlace_ge ps p hs.2 hs.1
    have hws : ws ≠ [] := hw (p, ws) (by simp)
    obtain ⟨s1, s2⟩ := words_sum hws
    have hr : wordRoom ((p, ws) :: ps) = (ws.map fun w => w.length + 5).sum + wordRoom ps := by simp [wordRoom]
    have hlp : lastPlace last ((p, ws) :: ps) = lastPlace p ps := rfl
    rw [hr, hlp] at h
    have hsum : (lastPlace p ps - last).toNat = (lastPlace p ps - p).toNat + (p - last).toNat := by omega
    rw [hr, hlp]
    -- what is written before the words
    have hb : ∃ x, betweenGo last p ⟨cap, pre ++ [' ']⟩ = .ok ⟨cap, pre ++ x⟩ ∧
        (if p = last then ['&'] else ' ' :: (List.replicate (p - last - 1).toNat "<> ".toList).flatten) = x ∧ x.length ≤ 1 + 3 * (p - last).toNat := by
      unfold betweenGo
      by_cases he : p = last
      · refine ⟨['&'], ?_, if_pos he, by simp⟩
        rw [if_pos he, setLast_ok]
      · refine ⟨' ' :: (List.replicate (p - last - 1).toNat "<> ".toList).flatten, ?_, if_neg he, ?_⟩
        · rw [if_neg he, show (p - 1 - last).toNat = (p - last - 1).toNat by omega, gapsGo_ok cap _ _ (by simp; omega)]
          simp
        · rw [List.length_cons, gaps_length]; omega
    obtain ⟨x, b1, b2, b3⟩ := hb
    rw [placesGo, b1]
    simp only [Res.ok_bind]
    have hp := place_ok (cap := cap) hws (txt := pre ++ x) (by rw [List.length_append]; omega)
    have ha : ∀ k : Buf → Res Buf, (wordsGo ws ⟨cap, pre ++ x⟩ >>= fun b => b.setLast ' ' >>= k) = (wordsGo ws ⟨cap, pre ++ x⟩ >>= fun b => b.setLast ' ') >>= k := by
      intro k
      cases wordsGo ws ⟨cap, pre ++ x⟩ <;> rfl
    rw [ha, hp]
    simp only [Res.ok_bind]
    obtain ⟨i1, i2⟩ := placesGo_ok cap ps p (pre ++ x ++ joinedBy ['|'] ws) hs.2 hs.1 (fun y hy => hw y (List.mem_cons_of_mem _ hy)) (by
      simp only [List.length_append]; omega)
    rw [i1]
    have hpt : placesText last ((p, ws) :: ps) = x ++ joinedBy ['|'] ws ++ placesText p ps := by rw [placesText, b2]
    rw [hpt]
    refine ⟨by simp, ?_⟩
    simp only [List.length_append]
    omega

theorem getLast_lastPlace : ∀ (ps : List (Int × List (List Char))) (p : Int) (ws : List (List Char)), ∃ vs, ((p, ws) :: ps).getLast? = some (lastPlace p ps, vs)
  | [], p, ws => ⟨ws, rfl⟩
  | (q, us) :: ps, p, ws => by
    obtain ⟨vs, h⟩ := getLast_lastPlace ps q us
    exact ⟨vs, by rw [List.getLast?_cons_cons, h]; rfl⟩

theorem phraseToS_ok (hn : nm.Ok) {qs : List (Int × List (List Char)) → List (Int × List (List Char))} (hqs : SortsPlaces qs) (df : Option Fld) (f : Fld)
    {ps : List (Int × List (List Char))} (hw : ∀ y ∈ ps, y.2 ≠ []) (slop : Int) {x : N} (hf : nm.finite x = true) :
    phraseToS nm qs df f ps slop x = .ok (fieldText df f ++ phraseText (qs ps) slop ++ if ps = [] then [] else boostText nm x) := by
  unfold phraseToS
  by_cases he : ps = []
  · subst he
    have e : qs [] = [] := (hqs []).1.eq_nil
    rw [if_pos rfl, if_pos rfl, e]
    unfold phraseText fieldText
    by_cases hd : df = some f
    · simp [hd]
    · rw [if_neg hd, if_neg hd, strfmt_spec (t := f ++ ":\"\"".toList) hn (by simp [formatted, nextStr])]
      simp
  · rw [if_neg he, if_neg he]
    have hfl := fieldText_length df f
    obtain ⟨hp, hs⟩ := hqs ps
    cases hq : qs ps with
    | nil => rw [hq] at hp; exact absurd hp.symm.eq_nil he
    | cons a rest =>
      obtain ⟨p0, ws⟩ := a
      rw [hq] at hp hs
      have hw' : ∀ y ∈ (p0, ws) :: rest, y.2 ≠ [] := fun y hy => hw y (hp.mem_iff.1 hy)
      obtain ⟨vs, hl⟩ := getLast_lastPlace rest p0 ws
      rw [List.pairwise_cons] at hs
      have hge := lastPlace_ge rest p0 hs.2 hs.1
      have hws : ws ≠ [] := hw' (p0, ws) (by simp)
      obtain ⟨s1, s2⟩ := words_sum hws
      have hi := intText_length slop
      have hr : ((((p0, ws) :: rest)).map fun y => (y.2.map fun w => w.length + 5).sum).sum = (ws.map fun w => w.length + 5).sum + wordRoom rest := by
        simp [wordRoom]
      simp only [hl, List.head?_cons, Res.ofOption, Res.ok_bind, alloc]
      rw [hr]
      generalize hcap : List.length f + 1 + ((ws.map fun w => w.length + 5).sum + wordRoom rest) + (100 + 3 * (lastPlace p0 rest - p0)).toNat = cap
      have hcap' : List.length f + 1 + ((ws.map fun w => w.length + 5).sum + wordRoom rest) + (100 + 3 * (lastPlace p0 rest - p0).toNat) = cap := by omega
      rw [putField_ok (by simp; omega)]
      simp only [Res.ok_bind, List.nil_append]
      rw [put_ok (by simp; omega)]
      simp only [Res.ok_bind]
      rw [placesGo]
      have hb : betweenGo (p0 - 1) p0 ⟨cap, fieldText df f ++ ['"']⟩ = .ok ⟨cap, fieldText df f ++ ['"']⟩ := by
        unfold betweenGo
        rw [if_neg (by omega), show (p0 - 1 - (p0 - 1)).toNat = 0 by omega]
        rfl
      rw [hb]
      simp only [Res.ok_bind]
      have hpl := place_ok (cap := cap) hws (txt := fieldText df f ++ ['"']) (by simp; omega)
      have ha : ∀ k : Buf → Res Buf, (wordsGo ws ⟨cap, fieldText df f ++ ['"']⟩ >>= fun b => b.setLast ' ' >>= k) =
          (wordsGo ws ⟨cap, fieldText df f ++ ['"']⟩ >>= fun b => b.setLast ' ') >>= k := by
        intro k
        cases wordsGo ws ⟨cap, fieldText df f ++ ['"']⟩ <;> rfl
      rw [ha, hpl]
      simp only [Res.ok_bind]
      obtain ⟨i1, i2⟩ := placesGo_ok cap rest p0 (fieldText df f ++ ['"'] ++ joinedBy ['|'] ws) hs.2 hs.1 (fun y hy => hw' y (List.mem_cons_of_mem _ hy)) (by
        simp only [List.length_append, List.length_cons, List.length_nil]; omega)
      rw [i1]
      simp only [Res.ok_bind, List.getLast?_concat, if_true, List.dropLast_concat]
      rw [put_ok (by simp only [List.length_append, List.length_cons, List.length_nil]; omega)]
      simp only [Res.ok_bind]
      rw [done_ok (by simp only [List.length_append, List.length_cons, List.length_nil]; omega)]
      simp only [Res.ok_bind]
      unfold phraseText slopTo
      by_cases h0 : slop = 0
      · rw [if_pos h0, if_pos (Or.inr h0)]
        simp only [Res.ok_bind]
        rw [wordBoost_ok hn hf (by simp only [List.length_append, List.length_cons, List.length_nil]; omega)]
        simp
      · rw [if_neg h0, if_neg (by simp [h0]), print_ok (by simp only [List.length_append, List.length_cons, List.length_nil]; omega)]
        simp only [Res.ok_bind]
        rw [wordBoost_ok hn hf (by simp only [List.length_append, List.length_cons, List.length_nil]; omega)]
        simp

/-! ### Boolean queries -/

theorem growGo_ok : ∀ (k size bp needed : Nat), 1 ≤ size → bp + needed ≤ size + k → 0 < needed → bp + needed ≤ growGo k size bp needed
  | 0, size, bp, needed, _, h, _ => by rw [growGo]; omega
  | k + 1, size, bp, needed, h1, h, hn => by
    rw [growGo]
    split
    · exact growGo_ok k (size * 2) bp needed (by omega) (by omega) hn
    · omega

theorem clauseTo_ok (o : Occ) (isBool : Bool) (s : List Char) (first : Bool) {cap : Nat} {txt : List Char} (h : txt.length < cap) :
    ∃ cap', clauseTo o isBool s first ⟨cap, txt⟩ =
        .ok ⟨cap', txt ++ ((if first then [] else [' ']) ++ (signText o ++ if isBool then '(' :: s ++ [')'] else s))⟩ ∧
      (txt ++ ((if first then [] else [' ']) ++ (signText o ++ if isBool then '(' :: s ++ [')'] else s))).length < cap' := by
  unfold clauseTo
  simp only
  have hg := growGo_ok (txt.length + s.length + 5) cap txt.length (s.length + 5) (by omega) (by omega) (by omega)
  generalize growGo (txt.length + s.length + 5) cap txt.length (s.length + 5) = cap' at hg
  refine ⟨cap', ?_⟩
  have h1 : (if first = true then ([] : List Char) else [' ']).length ≤ 1 := by split <;> simp
  have h2 : (signText o).length ≤ 1 := by cases o <;> simp [signText]
  generalize (if first = true then ([] : List Char) else [' ']) = x at h1
  rw [put_ok (by omega)]
  simp only [Res.ok_bind]
  rw [put_ok (by simp; omega)]
  simp only [Res.ok_bind]
  cases isBool with
  | false =>
    simp only [Bool.false_eq_true, if_false]
    rw [put_ok (by simp; omega)]
    exact ⟨by simp, by simp; omega⟩
  | true =>
    simp only [if_true]
    rw [put_ok (by simp; omega)]
    simp only [Res.ok_bind]
    rw [put_ok (by simp; omega)]
    simp only [Res.ok_bind]
    rw [put_ok (by simp; omega)]
    exact ⟨by simp, by simp; omega⟩

theorem boolEnd_ok (hn : nm.Ok) {x : N} (hf : nm.finite x = true) {cap : Nat} {txt : List Char} (h : txt.length < cap) :
    boolEnd nm x ⟨cap, txt⟩ = .ok (txt ++ if nm.one x then [] else ")^".toList ++ nm.text x) := by
  unfold boolEnd
  by_cases ho : nm.one x = true
  · rw [if_pos ho, if_pos ho, done_ok h, List.append_nil]
  · rw [if_neg ho, if_neg ho, strfmt_spec (t := ")^".toList ++ nm.text x) hn (by simp [formatted, nextDbl, hf])]
    simp only [Res.ok_bind]
    rw [put_ok (by omega)]
    simp only [Res.ok_bind]
    rw [done_ok (by rw [List.length_append]; omega)]

/-! ### Trees -/

theorem listText_length {N : Type} (nm : Nums N) (order : List (Int × List (List Char)) → List (Int × List (List Char))) (df : Option Fld) :
    ∀ cs : TList N, (listText nm order df cs).length = cs.length
  | .nil => by simp [listText, TList.length]
  | .cons q cs => by simp [listText, TList.length, listText_length nm order df cs]

/-- Texts with blanks between them, and one before the first unless it is the first of all. -/
def sepText (first : Bool) (ss : List (List Char)) : List Char :=
  match first, ss with
  | true, s :: ss => s ++ ss.flatMap ([' '] ++ ·)
  | true, [] => []
  | false, ss => ss.flatMap ([' '] ++ ·)

theorem flat_true (ss : List (List Char)) : sepText true ss = joinedBy [' '] ss := by
  cases ss with
  | nil => rfl
  | cons s ss => rw [joinedBy_cons]; rfl

/-! The texts that are put together from formats. -/

section
variable (hn : nm.Ok)
include hn

theorem fmt_all {b : N} (h : nm.finite b = true) : (if nm.one b then Res.ok ['*'] else strfmt nm "*^%f".toList [.dbl b]) = .ok ('*' :: boostText nm b) := by
  unfold boostText
  by_cases ho : nm.one b = true
  · rw [if_pos ho, if_pos ho]
  · rw [if_neg ho, if_neg ho, strfmt_spec hn (t := '*' :: '^' :: nm.text b) (by simp [formatted, nextDbl, h])]

theorem fmt_const (s : List Char) {b : N} (h : nm.finite b = true) :
    (if nm.one b then strfmt nm "ConstantScore(%s)".toList [.str (some s)] else strfmt nm "ConstantScore(%s)^%f".toList [.str (some s), .dbl b]) =
      .ok (letters "ConstantScore(" ++ s ++ ')' :: boostText nm b) := by
  unfold boostText letters
  by_cases ho : nm.one b = true
  · rw [if_pos ho, if_pos ho]
    exact strfmt_spec hn (by simp [formatted, nextStr])
  · rw [if_neg ho, if_neg ho]
    exact strfmt_spec hn (by simp [formatted, nextStr, nextDbl, h])

theorem fmt_filtered (t s : List Char) {b : N} (h : nm.finite b = true) :
    (if nm.one b then strfmt nm "FilteredQuery(query:%s, filter:%s)".toList [.str (some t), .str (some s)]
      else strfmt nm "FilteredQuery(query:%s, filter:%s)^%f".toList [.str (some t), .str (some s), .dbl b]) =
      .ok (letters "FilteredQuery(query:" ++ t ++ letters ", filter:" ++ s ++ ')' :: boostText nm b) := by
  unfold boostText letters
  by_cases ho : nm.one b = true
  · rw [if_pos ho, if_pos ho]
    exact strfmt_spec hn (by simp [formatted, nextStr])
  · rw [if_neg ho, if_neg ho]
    exact strfmt_spec hn (by simp [formatted, nextStr, nextDbl, h])

theorem fmt_spanTerm (df : Option Fld) (f : Fld) (w : List Char) :
    (if df = some f then strfmt nm "span_terms(%s)".toList [.str (some w)] else strfmt nm "span_terms(%s:%s)".toList [.str (some f), .str (some w)]) =
      .ok (letters "span_terms(" ++ fieldText df f ++ w ++ [')']) := by
  unfold fieldText letters
  by_cases hd : df = some f
  · rw [if_pos hd, if_pos hd]
    exact strfmt_spec hn (by simp [formatted, nextStr])
  · rw [if_neg hd, if_neg hd]
    exact strfmt_spec hn (by simp [formatted, nextStr])

theorem fmt_spanFirst (s : List Char) (last : Int) :
    strfmt nm "span_first(%s, %d)".toList [.str (some s), .int last] = .ok (letters "span_first(" ++ s ++ letters ", " ++ intText last ++ [')']) := by
  unfold letters
  exact strfmt_spec hn (by simp [formatted, nextStr, nextInt])

theorem fmt_spanNot (s t : List Char) :
    strfmt nm "span_not(inc:<%s>, exc:<%s>)".toList [.str (some s), .str (some t)] =
      .ok (letters "span_not(inc:<" ++ s ++ letters ">, exc:<" ++ t ++ letters ">)") := by
  unfold letters
  exact strfmt_spec hn (by simp [formatted, nextStr])

theorem fmt_range (f : Fld) (t : List Char) :
    strfmt nm "RangeFilter< %s >".toList [.str (some (f ++ ':' :: t))] = .ok (letters "RangeFilter< " ++ f ++ ':' :: t ++ letters " >") := by
  unfold letters
  exact strfmt_spec hn (by simp [formatted, nextStr])

theorem fmt_typed (f : Fld) (t : List Char) :
    strfmt nm "TypedRangeFilter< %s >".toList [.str (some (f ++ ':' :: t))] = .ok (letters "TypedRangeFilter< " ++ f ++ ':' :: t ++ letters " >") := by
  unfold letters
  exact strfmt_spec hn (by simp [formatted, nextStr])

theorem fmt_query (s : List Char) :
    strfmt nm "QueryFilter< %s >".toList [.str (some s)] = .ok (letters "QueryFilter< " ++ s ++ letters " >") := by
  unfold letters
  exact strfmt_spec hn (by simp [formatted, nextStr])

end

/-- Of queries: the text is the one asked for. -/
def TextOk (nm : Nums N) (qs : List (Int × List (List Char)) → List (Int × List (List Char))) (q : TQ N) : Prop :=
  Showable nm q → ∀ df, toS nm qs df q = .ok (textOf nm qs df q)
/-- Of clauses. -/
def ClausesOk (nm : Nums N) (qs : List (Int × List (List Char)) → List (Int × List (List Char))) (cs : TClauses N) : Prop :=
  ShowableAll nm cs → ∀ (df : Option Fld) (first : Bool) (cap : Nat) (txt : List Char), txt.length < cap →
    ∃ cap', clausesTo nm qs df first cs ⟨cap, txt⟩ = .ok ⟨cap', txt ++ sepText first (clausesText nm qs df cs)⟩ ∧
      (txt ++ sepText first (clausesText nm qs df cs)).length < cap'
/-- Of clauses of span queries. -/
def ListOk (nm : Nums N) (qs : List (Int × List (List Char)) → List (Int × List (List Char))) (cs : TList N) : Prop :=
  ShowableList nm cs → ∀ df, listToS nm qs df cs = .ok (listText nm qs df cs)
/-- Of filters. -/
def FilterOk (nm : Nums N) (qs : List (Int × List (List Char)) → List (Int × List (List Char))) (flt : TFilter N) : Prop :=
  ShowableFilter nm flt → filterToS nm qs flt = .ok (filterText nm qs flt)

section
variable (hn : nm.Ok) {qs : List (Int × List (List Char)) → List (Int × List (List Char))}
include hn

theorem ok_bool (cs : TClauses N) (b : N) (ih : ClausesOk nm qs cs) : TextOk nm qs (.bool cs b) := by
  intro h df
  rw [Showable] at h
  rw [toS, textOf, inParens]
  by_cases ho : nm.one b = true
  · rw [if_pos ho, if_pos ho]
    simp only [Res.ok_bind]
    obtain ⟨cap', h1, h2⟩ := ih h.1 df true 64 [] (by simp)
    rw [show alloc 64 = ⟨64, []⟩ from rfl, h1]
    simp only [Res.ok_bind]
    rw [boolEnd_ok hn h.2 h2, if_pos ho, List.append_nil, List.nil_append, flat_true]
  · rw [if_neg ho, if_neg ho, show alloc 64 = ⟨64, []⟩ from rfl, put_ok (by simp)]
    simp only [Res.ok_bind]
    obtain ⟨cap', h1, h2⟩ := ih h.1 df true 64 ([] ++ ['(']) (by simp)
    rw [h1]
    simp only [Res.ok_bind]
    rw [boolEnd_ok hn h.2 h2, if_neg ho, flat_true]
    simp

theorem ok_const (flt : TFilter N) (b : N) (ih : FilterOk nm qs flt) : TextOk nm qs (.const flt b) := by
  intro h df
  rw [Showable] at h
  rw [toS, textOf, ih h.1]
  rw [Res.ok_bind]
  exact fmt_const hn _ h.2

theorem ok_filtered (q : TQ N) (flt : TFilter N) (b : N) (ih : TextOk nm qs q) (ihf : FilterOk nm qs flt) : TextOk nm qs (.filtered q flt b) := by
  intro h df
  rw [Showable] at h
  rw [toS, textOf, ihf h.2.1]
  rw [Res.ok_bind]
  rw [ih h.1]
  rw [Res.ok_bind]
  exact fmt_filtered hn _ _ h.2.2

theorem ok_spanTerm (f : Fld) (w : List Char) : TextOk nm qs (.spanTerm f w) := by
  intro _ df
  rw [toS, textOf]
  exact fmt_spanTerm hn df f w

theorem ok_spanMulti (f : Fld) (ws : List (List Char)) : TextOk nm qs (.spanMulti f ws) := by
  intro _ df
  rw [toS, textOf, spanWords_ok]
  rw [Res.ok_bind]
  rw [fmt_spanTerm hn df f]
  simp [letters]

theorem ok_spanFirst (q : TQ N) (last : Int) (ih : TextOk nm qs q) : TextOk nm qs (.spanFirst q last) := by
  intro h df
  rw [Showable] at h
  rw [toS, textOf, ih h]
  rw [Res.ok_bind]
  exact fmt_spanFirst hn _ _

omit hn in
theorem ok_spanOr (cs : TList N) (ih : ListOk nm qs cs) : TextOk nm qs (.spanOr cs) := by
  intro h df
  rw [Showable] at h
  rw [toS, textOf, ih h, letters]
  rw [Res.ok_bind]
  exact spanOr_ok _

omit hn in
theorem ok_spanNear (cs : TList N) (ih : ListOk nm qs cs) : TextOk nm qs (.spanNear cs) := by
  intro h df
  rw [Showable] at h
  rw [toS, textOf, ih h.1, letters]
  rw [Res.ok_bind]
  exact spanNear_ok (by rw [listText_length]; exact h.2)

theorem ok_spanNot (inc exc : TQ N) (ih : TextOk nm qs inc) (ih' : TextOk nm qs exc) : TextOk nm qs (.spanNot inc exc) := by
  intro h df
  rw [Showable] at h
  rw [toS, textOf, ih h.1]
  rw [Res.ok_bind]
  rw [ih' h.2]
  rw [Res.ok_bind]
  exact fmt_spanNot hn _ _

omit hn in
theorem ok_cons (o : Occ) (q : TQ N) (cs : TClauses N) (ih : TextOk nm qs q) (ih' : ClausesOk nm qs cs) : ClausesOk nm qs (.cons o q cs) := by
  intro hw df first cap txt h
  rw [ShowableAll] at hw
  rw [clausesTo, clausesText, ih hw.1]
  rw [Res.ok_bind]
  obtain ⟨c1, h1, h2⟩ := clauseTo_ok o q.isBool (textOf nm qs df q) first h
  rw [h1]
  rw [Res.ok_bind]
  obtain ⟨c2, h3, h4⟩ := ih' hw.2 df false c1 _ h2
  have e : ∀ t : List Char, txt ++ ((if first = true then [] else [' ']) ++ t) ++ sepText false (clausesText nm qs df cs) =
      txt ++ sepText first (t :: clausesText nm qs df cs) := by
    intro t
    cases first <;> simp [sepText]
  rw [e] at h3 h4
  exact ⟨c2, h3, h4⟩

omit hn in
theorem ok_consList (q : TQ N) (cs : TList N) (ih : TextOk nm qs q) (ih' : ListOk nm qs cs) : ListOk nm qs (.cons q cs) := by
  intro h df
  rw [ShowableList] at h
  rw [listToS, listText, ih h.1]
  rw [Res.ok_bind]
  rw [ih' h.2]
  rfl

theorem ok_rangeFilter (f : Fld) (lo hi : Option (List Char)) (i j : Bool) : FilterOk nm qs (.range f lo hi i j) := by
  intro _
  rw [filterToS, filterText, rangeFilterToS_ok]
  rw [Res.ok_bind]
  exact fmt_range hn _ _

theorem ok_typedFilter (f : Fld) (lo hi : Option (List Char)) (i j : Bool) : FilterOk nm qs (.typed f lo hi i j) := by
  intro _
  rw [filterToS, filterText, rangeFilterToS_ok]
  rw [Res.ok_bind]
  exact fmt_typed hn _ _

theorem ok_queryFilter (q : TQ N) (ih : TextOk nm qs q) : FilterOk nm qs (.query q) := by
  intro h
  rw [ShowableFilter] at h
  rw [filterToS, filterText, ih h none]
  rw [Res.ok_bind]
  exact fmt_query hn _

theorem toS_ok (hqs : SortsPlaces qs) (q : TQ N) : TextOk nm qs q :=
  TQ.rec (motive_1 := TextOk nm qs) (motive_2 := ClausesOk nm qs) (motive_3 := ListOk nm qs) (motive_4 := FilterOk nm qs)
    (fun f w b h df => by rw [Showable] at h; rw [toS, textOf]; exact termToS_ok hn df f w h)
    (fun f ws b h df => by rw [Showable] at h; rw [toS, textOf]; exact multiToS_ok hn df f ws h.1 h.2)
    (fun f ps slop b h df => by rw [Showable] at h; rw [toS, textOf]; exact phraseToS_ok hn hqs df f h.1 slop h.2)
    (fun f w b h df => by rw [Showable] at h; rw [toS, textOf]; exact preToS_ok hn df f w h)
    (fun f w b h df => by rw [Showable] at h; rw [toS, textOf]; exact wildToS_ok hn df f w h)
    (fun f w sim b h df => by rw [Showable] at h; rw [toS, textOf]; exact fuzzyToS_ok hn df f w h.1 h.2)
    (fun f lo hi i j b h df => by rw [Showable] at h; rw [toS, textOf]; exact rangeToS_ok hn df f lo hi i j h)
    (fun b h df => by rw [Showable] at h; rw [toS, textOf]; exact fmt_all hn h)
    (fun cs b ih => ok_bool hn cs b ih)
    (fun flt b ih => ok_const hn flt b ih)
    (fun q flt b ih ih' => ok_filtered hn q flt b ih ih')
    (fun f w => ok_spanTerm hn f w)
    (fun f ws => ok_spanMulti hn f ws)
    (fun q last ih => ok_spanFirst hn q last ih)
    (fun cs ih => ok_spanOr cs ih)
    (fun cs ih => ok_spanNear cs ih)
    (fun inc exc ih ih' => ok_spanNot hn inc exc ih ih')
    (fun f w b h df => by rw [Showable] at h; rw [toS, textOf]; exact preToS_ok hn df f w h)
    (fun _ df first cap txt h => ⟨cap, by rw [clausesTo, clausesText]; cases first <;> simp [sepText], by rw [clausesText]; cases first <;> simpa [sepText] using h⟩)
    (fun o q cs ih ih' => ok_cons o q cs ih ih')
    (fun _ df => by rw [listToS, listText])
    (fun q cs ih ih' => ok_consList q cs ih ih')
    (fun n _ => by rw [filterToS, filterText])
    (fun f lo hi i j => ok_rangeFilter hn f lo hi i j)
    (fun f lo hi i j => ok_typedFilter hn f lo hi i j)
    (fun q ih => ok_queryFilter hn q ih)
    q

end

theorem listToS_ok (hn : nm.Ok) {qs : List (Int × List (List Char)) → List (Int × List (List Char))} (hqs : SortsPlaces qs) : ∀ cs : TList N, ListOk nm qs cs
  | .nil => fun _ df => by rw [listToS, listText]
  | .cons q cs => ok_consList q cs (toS_ok hn hqs q) (listToS_ok hn hqs cs)

/-! ### What goes wrong -/

/-- Texts with commas between them, and one before the first unless it is the first of all. -/
def sepBy (first : Bool) (ss : List (List Char)) : List Char :=
  match first, ss with
  | true, s :: ss => s ++ ss.flatMap ([','] ++ ·)
  | true, [] => []
  | false, ss => ss.flatMap ([','] ++ ·)

theorem sepBy_false_length (ss : List (List Char)) : (sepBy false ss).length = (ss.map List.length).sum + ss.length := by
  induction ss with
  | nil => rfl
  | cons s ss ih =>
    simp only [sepBy] at ih ⊢
    simp only [List.flatMap_cons, List.length_append, List.length_cons, List.length_nil, ih, List.map_cons, List.sum_cons]
    omega

theorem sepBy_length (ss : List (List Char)) (h : 0 < ss.length) : (sepBy true ss).length + 1 = (ss.map List.length).sum + ss.length := by
  cases ss with
  | nil => simp at h
  | cons s ss =>
    have := sepBy_false_length ss
    simp only [sepBy] at this ⊢
    simp only [List.length_append, this, List.map_cons, List.sum_cons, List.length_cons]
    omega

theorem put_or (cap : Nat) (txt s : List Char) : Buf.put ⟨cap, txt⟩ s = .ub ∨ Buf.put ⟨cap, txt⟩ s = .ok ⟨cap, txt ++ s⟩ := by
  unfold Buf.put
  split
  · exact Or.inr rfl
  · exact Or.inl rfl

theorem print_or (cap : Nat) (txt s : List Char) : Buf.print ⟨cap, txt⟩ s = .ub ∨ Buf.print ⟨cap, txt⟩ s = .ok ⟨cap, txt ++ s⟩ := by
  unfold Buf.print
  split
  · exact Or.inr rfl
  · exact Or.inl rfl

theorem spanGo_or (cap : Nat) : ∀ (ss : List (List Char)) (first : Bool) (txt : List Char),
    spanGo ss first ⟨cap, txt⟩ = .ub ∨ spanGo ss first ⟨cap, txt⟩ = .ok ⟨cap, txt ++ sepBy first ss⟩
  | [], first, txt => by cases first <;> simp [spanGo, sepBy]
  | s :: ss, first, txt => by
    cases first with
    | true =>
      simp only [spanGo, if_true, Res.ok_bind]
      rcases print_or cap txt s with h | h
      · exact Or.inl (by rw [h]; rfl)
      · rw [h]
        simp only [Res.ok_bind]
        rcases spanGo_or cap ss false (txt ++ s) with h | h
        · exact Or.inl h
        · exact Or.inr (by rw [h]; simp [sepBy])
    | false =>
      simp only [spanGo, Bool.false_eq_true, if_false]
      rcases put_or cap txt [','] with h | h
      · exact Or.inl (by rw [h]; rfl)
      · rw [h]
        simp only [Res.ok_bind]
        rcases print_or cap (txt ++ [',']) s with h | h
        · exact Or.inl (by rw [h]; rfl)
        · rw [h]
          simp only [Res.ok_bind]
          rcases spanGo_or cap ss false (txt ++ [','] ++ s) with h | h
          · exact Or.inl h
          · exact Or.inr (by rw [h]; simp [sepBy])

/-- Forty clauses and more: the commas have no room. -/
theorem spanNear_over {ss : List (List Char)} (h : 40 ≤ ss.length) : spanNearToS ss = .ub := by
  unfold spanNearToS alloc
  have e : ("span_near[".toList).length = 10 := rfl
  rw [print_ok (by simp only [List.length_nil, e]; omega)]
  simp only [Res.ok_bind, List.nil_append]
  rcases spanGo_or (50 + (ss.map List.length).sum) ss true "span_near[".toList with h1 | h1
  · rw [h1]; rfl
  · rw [h1]
    simp only [Res.ok_bind]
    rcases put_or (50 + (ss.map List.length).sum) ("span_near[".toList ++ sepBy true ss) [']'] with h2 | h2
    · rw [h2]; rfl
    · rw [h2]
      simp only [Res.ok_bind, Buf.done]
      have hl := sepBy_length ss (by omega)
      rw [if_neg (by simp only [List.length_append, e, List.length_cons, List.length_nil]; omega)]

end Ferret.QText
