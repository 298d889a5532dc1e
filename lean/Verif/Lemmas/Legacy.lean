import Verif.Spec.Legacy
import Verif.Lemmas.Analysis

/-!
Lemmas for C89: what one call of the legacy tokenizer does.
-/

namespace Ferret.Ana
open Ferret Ferret.Spec

/-! ### Bytes -/

theorem isDigitB_eq (b : Byte) : isDigitB b = isDigit b := rfl

theorem numPunc_mark {b : Byte} (h : isNumPunc b = true) : isMark b = true := by
  simp only [isNumPunc, Bool.or_eq_true, beq_iff_eq] at h
  rcases h with ((((rfl | rfl) | rfl) | rfl) | rfl) | rfl <;> decide

theorem numPunc_numMark (b : Byte) : isNumPunc b = isNumMark b := by
  rw [Bool.eq_iff_iff]
  simp only [isNumPunc, isNumMark, Bool.or_eq_true, beq_iff_eq, List.contains_iff_mem, List.mem_cons, List.not_mem_nil, or_false]
  constructor
  · rintro (((((h | h) | h) | h) | h) | h) <;> simp [h]
  · rintro (h | h | h | h | h | h) <;> simp [h]

theorem urlPunc_urlMark (b : Byte) : isUrlPunc b = isUrlMark b := by
  rw [Bool.eq_iff_iff]
  simp only [isUrlPunc, isUrlMark, Bool.or_eq_true, beq_iff_eq, List.contains_iff_mem, List.mem_cons, List.not_mem_nil, or_false]
  constructor
  · rintro (((h | h) | h) | h) <;> simp [h]
  · rintro (h | h | h | h) <;> simp [h]

theorem urlPunc_mark {b : Byte} (h : isUrlPunc b = true) : isMark b = true := by
  simp only [isUrlPunc, Bool.or_eq_true, beq_iff_eq] at h
  rcases h with ((rfl | rfl) | rfl) | rfl <;> decide

theorem xatPunc_mark {b : Byte} (h : isXatPunc b = true) : isMark b = true := by
  simp only [isXatPunc, Bool.or_eq_true, beq_iff_eq] at h
  rcases h with h | rfl
  · exact urlPunc_mark h
  · decide

theorem digit_not_mark {b : Byte} (h : isDigitB b = true) : isMark b = false := by
  simp only [isDigitB, Bool.and_eq_true, decide_eq_true_eq] at h
  cases hm : isMark b with
  | false => rfl
  | true =>
    simp only [isMark, List.contains_iff_mem, List.mem_cons, List.not_mem_nil, or_false] at hm
    rcases hm with rfl | rfl | rfl | rfl | rfl | rfl | rfl | rfl | rfl | rfl | rfl <;> exact absurd h (by decide)

theorem alnum_not_mark {L : Loc} (hL : CtypeLaws L) {b : Byte} (h : L.isAlnum b = true) : isMark b = false := by
  simp only [Loc.isAlnum, Bool.or_eq_true] at h
  rcases h with h | h
  · cases hm : isMark b with
    | false => rfl
    | true => rw [hL.mark b hm] at h; exact absurd h (by simp)
  · exact digit_not_mark h

theorem mark_not_alnum {L : Loc} (hL : CtypeLaws L) {b : Byte} (h : isMark b = true) : L.isAlnum b = false := by
  cases ha : L.isAlnum b with
  | false => rfl
  | true => rw [alnum_not_mark hL ha] at h; exact absurd h (by simp)

/-! ### Scans -/

theorem runLen_le (p : Byte → Bool) (s : List Byte) : runLen p s ≤ s.length :=
  (List.takeWhile_prefix p).length_le

theorem take_runLen (p : Byte → Bool) (s : List Byte) : s.take (runLen p s) = s.takeWhile p := by
  have h := List.takeWhile_append_dropWhile (p := p) (l := s)
  unfold runLen
  conv => lhs; arg 2; rw [← h]
  rw [List.take_left]

theorem mem_take_runLen {p : Byte → Bool} {s : List Byte} {b : Byte} (h : b ∈ s.take (runLen p s)) : p b = true := by
  rw [take_runLen] at h
  have := List.all_takeWhile (p := p) (l := s)
  rw [List.all_eq_true] at this
  exact this b h

theorem numScan_le (L : Loc) : ∀ (s : List Byte) (i count : Nat) (last : Int) (seen : Bool), count ≤ i →
    (numScan L s i count last seen).1 ≤ i + s.length := by
  intro s
  induction s with
  | nil =>
    intro i count last seen h
    simp only [numScan, List.length_nil]
    split <;> omega
  | cons b bs ih =>
    intro i count last seen h
    simp only [numScan, List.length_cons]
    split
    · have := ih (i + 1) count (if last < 2 ∧ isDigitB b then 2 else last) (seen || isDigitB b) (by omega)
      omega
    · split
      · show (if 0 ≤ last - 1 then i else count) ≤ _
        split <;> omega
      · split
        · have := ih (i + 1) i (last - 1) seen (by omega)
          omega
        · show i ≤ _
          omega

theorem numScan_seen (L : Loc) : ∀ (s : List Byte) (i count : Nat) (last : Int), 1 ≤ i → (1 ≤ count ∨ 1 ≤ last) →
    1 ≤ (numScan L s i count last true).1 ∧ (numScan L s i count last true).2 = true := by
  intro s
  induction s with
  | nil =>
    intro i count last h hc
    simp only [numScan, and_true]
    split <;> omega
  | cons b bs ih =>
    intro i count last h hc
    simp only [numScan]
    split
    · rw [Bool.true_or]
      refine ih (i + 1) count _ (by omega) ?_
      split <;> omega
    · split
      · refine ⟨?_, rfl⟩
        show 1 ≤ (if 0 ≤ last - 1 then i else count)
        split <;> omega
      · split
        · exact ih (i + 1) i (last - 1) (by omega) (by omega)
        · exact ⟨h, rfl⟩

theorem getNumber_le (L : Loc) (s : List Byte) : getNumber L s ≤ s.length := by
  unfold getNumber
  have := numScan_le L s 0 0 2 false (by omega)
  dsimp only
  split <;> omega

theorem getNumber_signed {L : Loc} (hL : CtypeLaws L) {p d : Byte} {r : List Byte} (hp : isNumPunc p = true) (hd : isDigitB d = true) :
    0 < getNumber L (p :: d :: r) := by
  have h1 : L.isAlnum p = false := mark_not_alnum hL (numPunc_mark hp)
  have h2 : L.isAlnum d = true := by simp [Loc.isAlnum, hd]
  have e : numScan L (p :: d :: r) 0 0 2 false = numScan L r 2 0 2 true := by
    rw [numScan]
    simp only [h1, hp, h2, List.head?_cons, Option.any_some, Bool.not_true, Bool.or_self, Bool.false_eq_true, if_false]
    rw [if_pos (by omega), numScan, if_pos h2, if_pos ⟨by omega, hd⟩, hd]
    rfl
  have h := numScan_seen L r 2 0 2 (by omega) (by omega)
  unfold getNumber
  rw [e]
  simp only [h.2, if_true]
  omega

theorem urlScan_le (L : Loc) : ∀ (s : List Byte) (prev : Byte), urlScan L prev s ≤ s.length := by
  intro s
  induction s with
  | nil => intro _; simp [urlScan]
  | cons b bs ih =>
    intro prev
    simp only [urlScan, List.length_cons]
    split
    · omega
    · split
      · omega
      · have := ih b
        omega

theorem xatScan_le (L : Loc) : ∀ (s : List Byte) (prev : Byte) (acro seen : Bool), (xatScan L prev s acro seen).1 ≤ s.length := by
  intro s
  induction s with
  | nil => intro _ _ _; simp [xatScan]
  | cons b bs ih =>
    intro prev acro seen
    simp only [xatScan, List.length_cons]
    split
    · exact Nat.zero_le _
    · split
      · exact Nat.zero_le _
      · split
        · exact Nat.zero_le _
        · have := ih b (acro && (L.isAlpha b || b == 46)) (seen || b == 64)
          show _ + 1 ≤ _
          omega

theorem xatScan_bytes (L : Loc) : ∀ (s : List Byte) (prev : Byte) (acro seen : Bool), ∀ x ∈ s.take (xatScan L prev s acro seen).1, isXatC L x = true := by
  intro s
  induction s with
  | nil => intro _ _ _ x hx; simp at hx
  | cons b bs ih =>
    intro prev acro seen x
    simp only [xatScan]
    split
    · intro hx; simp at hx
    · rename_i hb
      split
      · intro hx; simp at hx
      · split
        · intro hx; simp at hx
        · intro hx
          rw [List.take_succ_cons, List.mem_cons] at hx
          rcases hx with rfl | hx
          · simpa using hb
          · exact ih _ _ _ x hx

theorem stripLen_split (p : Byte → Bool) (s : List Byte) : ∃ post, s = s.take (stripLen p s) ++ post ∧ (∀ b ∈ post, p b = true) ∧
    ∀ b, (s.take (stripLen p s)).getLast? = some b → p b = false := by
  have h := List.takeWhile_append_dropWhile (p := p) (l := s.reverse)
  have h2 : s = (s.reverse.dropWhile p).reverse ++ (s.reverse.takeWhile p).reverse := by
    rw [← List.reverse_append, h, List.reverse_reverse]
  have h3 : s.take (stripLen p s) = (s.reverse.dropWhile p).reverse := by
    unfold stripLen
    conv => lhs; arg 2; rw [h2]
    rw [← List.length_reverse, List.take_left]
  refine ⟨(s.reverse.takeWhile p).reverse, by rw [h3]; exact h2, ?_, ?_⟩
  · intro b hb
    rw [List.mem_reverse] at hb
    have := List.all_takeWhile (p := p) (l := s.reverse)
    rw [List.all_eq_true] at this
    exact this b hb
  · intro b hb
    rw [h3, List.getLast?_reverse] at hb
    have := List.head?_dropWhile_not p s.reverse
    rw [hb] at this
    simpa using this

theorem stripLen_le (p : Byte → Bool) (s : List Byte) : stripLen p s ≤ s.length := by
  unfold stripLen
  have := (List.dropWhile_sublist p (l := s.reverse)).length_le
  simpa using this

theorem stripLen_pos {p : Byte → Bool} {s : List Byte} {b : Byte} (hb : b ∈ s) (h : p b = false) : 0 < stripLen p s := by
  obtain ⟨post, h1, h2, _⟩ := stripLen_split p s
  rcases Nat.eq_zero_or_pos (stripLen p s) with h0 | h0
  · rw [h0, List.take_zero, List.nil_append] at h1
    have := h2 b (h1 ▸ hb)
    rw [h] at this
    exact absurd this (by simp)
  · exact h0

/-! ### The laws of the parts that differ -/

/-- What legacy_std_next relies on. -/
structure OpsLaws (O : LegacyOps) : Prop where
  advance : ∀ (s : List Byte) k, O.advance s = some k → k < s.length ∧ (0 < O.alpha (s.drop k) ∨
    (O.alpha (s.drop k) = 0 ∧ ∃ p d r, s.drop k = p :: d :: r ∧ isNumPunc p = true ∧ isDigitB d = true))
  alpha_le : ∀ s : List Byte, O.alpha s ≤ s.length
  alpha_bytes : ∀ (s : List Byte), ∀ b ∈ s.take (O.alpha s), isMark b = false
  tok : ∀ p d r, isNumPunc p = true → isDigitB d = true → O.isTok (p :: d :: r) = true
  apos_le : ∀ s : List Byte, O.apos s ≤ s.length
  apos_pos : ∀ r, 0 < O.apos (39 :: r)

/-- A step gives a token. -/
def StepOk (L : Loc) (text : List Byte) (start : Nat) (o : LegacyOut) : Prop :=
  ∃ (txt : List Byte) (stop : Nat), o = .ok (some (⟨txt, start, stop, 1⟩, stop)) ∧ start < stop ∧ stop ≤ text.length ∧
    GivenAs L (between text start stop) txt

theorem tkSetTs_eq (text : List Byte) (s e : Nat) (k : Int) : tkSetTs text s e k = ⟨(between text s e).take 254, s, e, k⟩ := by
  unfold tkSetTs
  rw [tkSet_eq]
  rfl

theorem giveTs_ok (L : Loc) (text : List Byte) {s e : Nat} (h1 : s < e) (h2 : e ≤ text.length) : StepOk L text s (giveTs text s e) := by
  refine ⟨_, e, ?_, h1, h2, GivenAs.asIs⟩
  unfold giveTs
  rw [tkSetTs_eq]

theorem between_append (text : List Byte) {a b c : Nat} (h1 : a ≤ b) (h2 : b ≤ c) : between text a c = between text a b ++ between text b c := by
  unfold between
  have e : text.drop b = (text.drop a).drop (b - a) := by rw [List.drop_drop]; congr 1; omega
  rw [e, show c - a = (b - a) + (c - b) by omega, List.take_add]

theorem between_one {text : List Byte} {i : Nat} {b : Byte} (h : text[i]? = some b) : between text i (i + 1) = [b] := by
  unfold between
  have hlt : i < text.length := by
    rcases Nat.lt_or_ge i text.length with h' | h'
    · exact h'
    · rw [List.getElem?_eq_none (by omega)] at h; exact absurd h (by simp)
  rw [List.drop_eq_getElem_cons hlt, show i + 1 - i = 1 by omega, List.take_succ_cons, List.take_zero]
  rw [List.getElem?_eq_getElem hlt, Option.some.injEq] at h
  rw [h]

theorem between_length {text : List Byte} {a b : Nat} (h : b ≤ text.length) : (between text a b).length = b - a := by
  unfold between
  rw [List.length_take, List.length_drop]
  omega

theorem getElem?_between {text : List Byte} {a b i : Nat} (h : i < b - a) : (between text a b)[i]? = text[a + i]? := by
  unfold between
  rw [List.getElem?_take, if_pos h, List.getElem?_drop]

theorem aposCase_ok (L : Loc) (text : List Byte) {start t : Nat} (h1 : start + 2 ≤ t) (h2 : t ≤ text.length) : StepOk L text start (aposCase text start t) := by
  unfold aposCase
  rw [if_neg (by omega)]
  have l1 : t - 1 < text.length := by omega
  have l2 : t - 2 < text.length := by omega
  have g1 := List.getElem?_eq_getElem l1
  have g2 := List.getElem?_eq_getElem l2
  rw [g1, g2]
  generalize text[t - 1] = a at *
  generalize text[t - 2] = b at *
  simp only [Res.ofOption, Res.ok_bind, tkSetTs_eq]
  have s1 : between text start t = between text start (t - 1) ++ [a] := by
    rw [between_append text (show start ≤ t - 1 by omega) (show t - 1 ≤ t by omega)]
    have := between_one g1
    rw [show t - 1 + 1 = t by omega] at this
    rw [this]
  have s2 : between text start (t - 1) = between text start (t - 2) ++ [b] := by
    rw [between_append text (show start ≤ t - 2 by omega) (show t - 2 ≤ t - 1 by omega)]
    have := between_one g2
    rw [show t - 2 + 1 = t - 1 by omega] at this
    rw [this]
  split
  · rename_i h
    simp only [Bool.and_eq_true, Bool.or_eq_true, beq_iff_eq] at h
    refine ⟨_, t, rfl, by omega, h2, GivenAs.possessive (between text start (t - 2)) [b, a] ?_ ?_⟩
    · obtain ⟨h | h, h'⟩ := h <;> simp [h, h']
    · rw [s1, s2, List.append_assoc]; rfl
  · split
    · rename_i h
      simp only [beq_iff_eq] at h
      exact ⟨_, t, rfl, by omega, h2, GivenAs.possessive (between text start (t - 1)) [a] (by simp [h]) s1⟩
    · exact giveTs_ok L text (by omega) h2

/-! ### Bounds -/

theorem bounded {text : List Byte} (h : ShortWords text) {i m : Nat} (h1 : i + m ≤ text.length) (h2 : ∀ b ∈ (text.drop i).take m, b ≠ 32) : m ≤ 256 := by
  rcases Nat.lt_or_ge 256 m with hm | hm
  · obtain ⟨j, j1, j2, j3⟩ := h i (by omega)
    refine absurd rfl (h2 32 ?_)
    have : ((text.drop i).take m)[j - i]? = some 32 := by
      rw [List.getElem?_take, if_pos (by omega), List.getElem?_drop, show i + (j - i) = j by omega, j3]
    exact List.mem_of_getElem? this
  · exact hm

theorem take_drop_append (l : List Byte) (a b : Nat) : l.take (a + b) = l.take a ++ (l.drop a).take b := by
  rw [List.take_add]

theorem ofOption_get {text : List Byte} {i : Nat} (h : i < text.length) : ∃ b, text[i]? = some b := ⟨_, List.getElem?_eq_getElem h⟩

theorem getUrl_ok (L : Loc) (text : List Byte) (base i : Nat) (h1 : 0 < base + i) (h2 : base + i ≤ text.length)
    {b : Byte} (hb : (text.drop base).head? = some b) (hm : isUrlPunc b = false) (hn : 0 < i ∨ isUrlC L b = true) :
    ∃ len n marks, getUrl L text base i = .ok (len, base + n) ∧ i ≤ n ∧ 0 < n ∧ base + n ≤ text.length ∧ len ≤ 254 ∧
      (between text base (base + n)).take 254 = (text.drop base).take len ++ marks ∧ (∀ x ∈ marks, isUrlMark x = true) ∧
      ∀ x, ((text.drop base).take len).getLast? = some x → isUrlMark x = false := by
  obtain ⟨prev, hp⟩ := ofOption_get (text := text) (i := base + i - 1) (by omega)
  have hk : urlScan L prev (text.drop (base + i)) ≤ text.length - (base + i) := by
    have := urlScan_le L (text.drop (base + i)) prev
    rwa [List.length_drop] at this
  have hpos : 0 < i + urlScan L prev (text.drop (base + i)) := by
    rcases Nat.eq_zero_or_pos i with h0 | h0
    · subst h0
      have hc := hn.resolve_left (by omega)
      rw [Nat.add_zero]
      cases he : text.drop base with
      | nil => rw [he] at hb; simp at hb
      | cons x xs =>
        rw [he, List.head?_cons, Option.some.injEq] at hb
        subst hb
        rw [urlScan, hc, hm]
        simp
    · omega
  generalize hnn : i + urlScan L prev (text.drop (base + i)) = n at *
  have hle : base + n ≤ text.length := by omega
  have hin : (text.drop base).take (if 255 ≤ n then 254 else n) = (between text base (base + n)).take 254 := by
    unfold between
    rw [List.take_take, show base + n - base = n by omega]
    congr 1
    split <;> omega
  obtain ⟨marks, m1, m2, m3⟩ := stripLen_split isUrlPunc ((text.drop base).take (if 255 ≤ n then 254 else n))
  have hl := stripLen_le isUrlPunc ((text.drop base).take (if 255 ≤ n then 254 else n))
  have hl2 : stripLen isUrlPunc ((text.drop base).take (if 255 ≤ n then 254 else n)) ≤ (if 255 ≤ n then 254 else n) := by
    rw [List.length_take] at hl
    omega
  have hps : 0 < stripLen isUrlPunc ((text.drop base).take (if 255 ≤ n then 254 else n)) := by
    refine stripLen_pos (b := b) ?_ hm
    cases he : text.drop base with
    | nil => rw [he] at hb; simp at hb
    | cons x xs =>
      rw [he, List.head?_cons, Option.some.injEq] at hb
      subst hb
      obtain ⟨m, hm'⟩ : ∃ m, (if 255 ≤ n then 254 else n) = m + 1 := ⟨(if 255 ≤ n then 254 else n) - 1, by split <;> omega⟩
      rw [hm', List.take_succ_cons]
      exact List.mem_cons_self
  have htt : ((text.drop base).take (if 255 ≤ n then 254 else n)).take (stripLen isUrlPunc ((text.drop base).take (if 255 ≤ n then 254 else n))) =
      (text.drop base).take (stripLen isUrlPunc ((text.drop base).take (if 255 ≤ n then 254 else n))) := by
    rw [List.take_take]
    congr 1
    omega
  rw [htt] at m1 m3
  refine ⟨stripLen isUrlPunc ((text.drop base).take (if 255 ≤ n then 254 else n)), n, marks, ?_, by omega, hpos, hle, ?_, ?_, ?_, ?_⟩
  · unfold getUrl
    rw [if_neg (by omega), hp]
    simp only [Res.ofOption, Res.ok_bind, hnn]
    rw [if_neg (by omega)]
  · have : (if 255 ≤ n then 254 else n) ≤ 254 := by split <;> omega
    omega
  · rw [← hin]; exact m1
  · intro x hx; rw [← urlPunc_urlMark]; exact m2 x hx
  · intro x hx; rw [← urlPunc_urlMark]; exact m3 x hx

theorem head?_drop' (text : List Byte) (i : Nat) : (text.drop i).head? = text[i]? := by
  rw [List.head?_drop]

theorem prefix_drop {text : List Byte} {i : Nat} (h : [58, 47, 47].isPrefixOf (text.drop i) = true) :
    i + 3 ≤ text.length ∧ between text i (i + 3) = [58, 47, 47] := by
  rw [List.isPrefixOf_iff_prefix] at h
  obtain ⟨r, hr⟩ := h
  constructor
  · have := congrArg List.length hr
    rw [List.length_append, List.length_drop] at this
    simp only [List.length_cons, List.length_nil] at this
    omega
  · unfold between
    rw [← hr, show i + 3 - i = 3 by omega]
    rfl

theorem urlCase_ok {L : Loc} (hL : CtypeLaws L) {text : List Byte} (hs : ShortWords text) {start n : Nat} (h0 : 0 < n)
    (hb : ∀ b ∈ (text.drop start).take n, isMark b = false) (hu : [58, 47, 47].isPrefixOf (text.drop (start + n)) = true) :
    StepOk L text start (urlCase L text start n) := by
  obtain ⟨p1, p2⟩ := prefix_drop hu
  have hr := runLen_le (· == 47) (text.drop (start + n + 3))
  rw [List.length_drop] at hr
  have hrb : ∀ x ∈ (text.drop (start + n + 3)).take (runLen (· == 47) (text.drop (start + n + 3))), x = 47 := by
    intro x hx
    have := mem_take_runLen hx
    simpa using this
  generalize hk : runLen (· == 47) (text.drop (start + n + 3)) = k at *
  have hpre : between text start (start + n + 3 + k) = (text.drop start).take n ++ [58, 47, 47] ++ (text.drop (start + n + 3)).take k := by
    rw [between_append text (show start ≤ start + n by omega) (show start + n ≤ start + n + 3 + k by omega),
      between_append text (show start + n ≤ start + n + 3 by omega) (show start + n + 3 ≤ start + n + 3 + k by omega), p2, ← List.append_assoc]
    congr 2
    · unfold between; congr 1; omega
    · unfold between; congr 1; omega
  have hlen : n + 3 + k ≤ 256 := by
    refine bounded hs (i := start) (by omega) ?_
    intro b hbb
    have : (text.drop start).take (n + 3 + k) = between text start (start + n + 3 + k) := by
      unfold between; congr 1; omega
    rw [this, hpre, List.mem_append, List.mem_append] at hbb
    rcases hbb with (hbb | hbb) | hbb
    · intro e; subst e; exact absurd (hb _ hbb) (by decide)
    · simp only [List.mem_cons, List.not_mem_nil, or_false] at hbb
      rcases hbb with rfl | rfl | rfl <;> decide
    · rw [hrb b hbb]; decide
  have hfirst : ∃ b, (text.drop start).head? = some b ∧ isUrlPunc b = false := by
    cases he : text.drop start with
    | nil => have := congrArg List.length he; rw [List.length_drop] at this; simp at this; omega
    | cons b bs =>
      refine ⟨b, rfl, ?_⟩
      have hbm := hb b (by rw [he]; obtain ⟨m, rfl⟩ : ∃ m, n = m + 1 := ⟨n - 1, by omega⟩; rw [List.take_succ_cons]; exact List.mem_cons_self)
      cases hc : isUrlPunc b with
      | false => rfl
      | true => rw [urlPunc_mark hc] at hbm; exact absurd hbm (by simp)
  unfold urlCase
  rw [if_neg (by omega)]
  dsimp only
  rw [hk]
  split
  · rename_i hsch
    rw [Bool.and_eq_true] at hsch
    obtain ⟨ha, hsc⟩ := hsch
    obtain ⟨b, hb1, hb2⟩ : ∃ b, (text.drop (start + n + 3 + k)).head? = some b ∧ L.isAlpha b = true := by
      cases hh : (text.drop (start + n + 3 + k)).head? with
      | none => rw [hh] at ha; simp at ha
      | some b => rw [hh] at ha; exact ⟨b, rfl, by simpa using ha⟩
    have hal : L.isAlnum b = true := by simp [Loc.isAlnum, hb2]
    have hlt : start + n + 3 + k < text.length := by
      rcases Nat.lt_or_ge (start + n + 3 + k) text.length with h | h
      · exact h
      · rw [List.drop_eq_nil_of_le h] at hb1; simp at hb1
    have hnp : isUrlPunc b = false := by
      cases hc : isUrlPunc b with
      | false => rfl
      | true => rw [mark_not_alnum hL (urlPunc_mark hc)] at hal; exact absurd hal (by simp)
    obtain ⟨len, m, marks, g1, g2, g3, g4, g5, g6, g7, g8⟩ := getUrl_ok L text (start + n + 3 + k) 0 (by omega) (by omega) hb1 hnp (.inr (by simp [isUrlC, hal]))
    rw [g1, Res.ok_bind, tkSet_eq, List.take_of_length_le (by rw [List.length_take]; omega)]
    refine ⟨_, _, rfl, by omega, g4, ?_⟩
    have hwhole : between text start (start + n + 3 + k + m) =
        between text start (start + n + 3 + k) ++ between text (start + n + 3 + k) (start + n + 3 + k + m) :=
      between_append text (by omega) (by omega)
    obtain ⟨name, hn1, hn2⟩ := List.any_eq_true.1 hsc
    rw [List.isPrefixOf_iff_prefix] at hn2
    obtain ⟨more, hmore⟩ := hn2
    refine GivenAs.url _ _ _ marks hwhole (.inr ⟨name, more, _, hn1, ?_, hrb, ?_⟩) ⟨(text.drop start).take n, (text.drop (start + n + 3)).take k ++ between text (start + n + 3 + k) (start + n + 3 + k + m), ?_⟩ g6 g7 g8
    · rw [hpre, hmore]
      congr 2
      unfold slice
      congr 1
      omega
    · unfold between
      rw [show start + n + 3 + k + m - (start + n + 3 + k) = m by omega]
      cases hdd : text.drop (start + n + 3 + k) with
      | nil => rw [hdd] at hb1; simp at hb1
      | cons x xs =>
        rw [hdd, List.head?_cons, Option.some.injEq] at hb1
        subst hb1
        obtain ⟨q, rfl⟩ : ∃ q, m = q + 1 := ⟨m - 1, by omega⟩
        simp [hb2]
    · rw [hwhole, hpre, List.append_assoc]
  · rw [if_neg (by omega)]
    obtain ⟨b, hb1, hb2⟩ := hfirst
    obtain ⟨len, m, marks, g1, g2, g3, g4, g5, g6, g7, g8⟩ := getUrl_ok L text start (start + n + 3 + k - start) (by omega) (by omega) hb1 hb2 (.inl (by omega))
    rw [g1, Res.ok_bind, tkSet_eq, List.take_of_length_le (by rw [List.length_take]; omega)]
    refine ⟨_, _, rfl, by omega, g4, ?_⟩
    refine GivenAs.url [] _ _ marks rfl (.inl rfl) ⟨(text.drop start).take n, (text.drop (start + n + 3)).take k ++ between text (start + n + 3 + k) (start + m), ?_⟩ g6 g7 g8
    rw [between_append text (show start ≤ start + n + 3 + k by omega) (show start + n + 3 + k ≤ start + m by omega), hpre, List.append_assoc]

theorem acroOk_spec (L : Loc) : ∀ (s : List Byte), acroOk L s = true → ∀ (i : Nat) b c, s[i]? = some b → s[i + 1]? = some c → L.isAlpha b = true → c = 46 := by
  intro s
  induction s with
  | nil => intro _ i b c h; simp at h
  | cons x xs ih =>
    cases xs with
    | nil => intro _ i b c _ h; simp at h
    | cons y ys =>
      intro h i b c h1 h2 h3
      rw [acroOk, Bool.and_eq_true] at h
      cases i with
      | zero =>
        simp only [List.getElem?_cons_zero, Option.some.injEq, List.getElem?_cons_succ, Nat.zero_add] at h1 h2
        subst h1; subst h2
        have h4 := h.1
        rw [h3] at h4
        simpa using h4
      | succ i =>
        simp only [List.getElem?_cons_succ] at h1 h2
        exact ih h.2 i b c h1 (by simpa using h2) h3

theorem longCase_ok {L : Loc} (hL : CtypeLaws L) {text : List Byte} (hs : ShortWords text) {start n : Nat} (h0 : 0 < start + n) (h1 : start + n ≤ text.length)
    (hb : ∀ b ∈ (text.drop start).take n, isMark b = false) {num : Option Nat} (hnum : ∀ e, num = some e → start < e ∧ e ≤ text.length)
    (hgo : 0 < n ∨ num ≠ none) : StepOk L text start (longCase L text start n num) := by
  obtain ⟨prev, hp⟩ := ofOption_get (text := text) (i := start + n - 1) (by omega)
  unfold longCase
  rw [if_neg (by omega), hp]
  simp only [Res.ofOption, Res.ok_bind]
  have hx1 := xatScan_le L (text.drop (start + n)) prev true false
  have hx2 := xatScan_bytes L (text.drop (start + n)) prev true false
  rw [List.length_drop] at hx1
  generalize xatScan L prev (text.drop (start + n)) true false = r at *
  have hsl : slice text start (start + n + r.1) = between text start (start + n + r.1) := rfl
  obtain ⟨post, s1, s2, s3⟩ := stripLen_split isXatPunc (slice text start (start + n + r.1))
  have hle := stripLen_le isXatPunc (slice text start (start + n + r.1))
  rw [hsl, between_length (by omega)] at hle
  rw [← hsl] at hle
  have hpos : 0 < n → 0 < stripLen isXatPunc (slice text start (start + n + r.1)) := by
    intro hn
    have hmem : ∃ b, b ∈ (text.drop start).take n := by
      have : ((text.drop start).take n).length = n := by rw [List.length_take, List.length_drop]; omega
      cases he : (text.drop start).take n with
      | nil => rw [he] at this; simp at this; omega
      | cons b bs => exact ⟨b, List.mem_cons_self⟩
    obtain ⟨b, hbm⟩ := hmem
    refine stripLen_pos (b := b) ?_ ?_
    · rw [hsl, between_append text (show start ≤ start + n by omega) (show start + n ≤ start + n + r.1 by omega), List.mem_append]
      left
      unfold between
      rwa [show start + n - start = n by omega]
    · cases hc : isXatPunc b with
      | false => rfl
      | true => exact absurd (hb b hbm) (by simp [xatPunc_mark hc])
  have hnb : ∀ b ∈ (text.drop start).take (n + r.1), b ≠ 32 := by
    intro b hbb e
    subst e
    rw [List.take_add, List.mem_append, List.drop_drop] at hbb
    rcases hbb with hbb | hbb
    · exact absurd (hb _ hbb) (by decide)
    · have := hx2 _ hbb
      simp only [isXatC, mark_not_alnum hL (b := 32) (by decide)] at this
      exact absurd this (by decide)
  have hlen : n + r.1 ≤ 256 := bounded hs (i := start) (by omega) hnb
  generalize stripLen isXatPunc (slice text start (start + n + r.1)) = q at *
  have hq0 : 0 < start + q := by
    rcases Nat.eq_zero_or_pos n with h | h
    · omega
    · have := hpos h; omega
  rw [if_neg (by omega)]
  split
  · rename_i hall
    have hlt : start < start + q := by
      cases hne : num with
      | none =>
        rw [hne] at hgo
        have hn : 0 < n := by
          rcases hgo with h | h
          · exact h
          · exact absurd rfl h
        have := hpos hn
        omega
      | some e =>
        rw [hne] at hall
        have := hnum e hne
        have : e < start + q := by simpa using hall
        omega
    split
    · rename_i hac
      rw [Bool.and_eq_true] at hac
      unfold acroCase
      have hll : ((slice text (start + n) (start + q)).filter (· != 46)).length ≤ q - n := by
        have h1 := List.length_filter_le (fun b : Byte => b != 46) (slice text (start + n) (start + q))
        have h2 : (slice text (start + n) (start + q)).length = start + q - (start + n) := between_length (by omega)
        omega
      by_cases hqn : n ≤ q
      · rw [if_neg (by rintro ⟨_, h⟩; omega), tkSet_eq]
        refine ⟨_, start + q, rfl, hlt, by omega, ?_⟩
        have hw : slice text start (start + n) ++ (slice text (start + n) (start + q)).filter (· != 46) = (between text start (start + q)).filter (· != 46) := by
          rw [between_append text (show start ≤ start + n by omega) (show start + n ≤ start + q by omega), List.filter_append]
          congr 1
          refine (List.filter_eq_self.2 ?_).symm
          intro b hbb
          unfold slice at hbb
          rw [show start + n - start = n by omega] at hbb
          have hm := hb b hbb
          rw [bne_iff_ne]
          rintro rfl
          exact absurd hm (by decide)
        rw [hw]
        exact GivenAs.acronym (acroOk_spec L _ hac.2)
      · exfalso
        -- everything after the last byte of the run was stripped, so the run is not shortened
        have hmem : ∃ b ∈ (text.drop start).take n, isXatPunc b = true := by
          have hlast : q < n := by omega
          have hg : ∃ b, text[start + q]? = some b := ofOption_get (by omega)
          obtain ⟨b, hg⟩ := hg
          refine ⟨b, ?_, ?_⟩
          · apply List.mem_of_getElem? (i := q)
            rw [List.getElem?_take, if_pos hlast, List.getElem?_drop, hg]
          · apply s2
            apply List.mem_of_getElem? (i := 0)
            have e : post = (slice text start (start + n + r.1)).drop q := by
              conv => rhs; rw [s1]
              have hq : ((slice text start (start + n + r.1)).take q).length = q := by
                rw [List.length_take]
                have : (slice text start (start + n + r.1)).length = start + n + r.1 - start := between_length (by omega)
                omega
              rw [List.drop_append_of_le_length (by omega), List.drop_eq_nil_of_le (by omega), List.nil_append]
            rw [e, List.getElem?_drop, Nat.add_zero, hsl, getElem?_between (by omega), hg]
        obtain ⟨b, hbb, hbx⟩ := hmem
        have := hb b hbb
        rw [xatPunc_mark hbx] at this
        exact absurd this (by simp)
    · exact giveTs_ok L text hlt (by omega)
  · rename_i hall
    cases hne : num with
    | none => rw [hne] at hall; simp at hall
    | some e =>
      have := hnum e hne
      exact giveTs_ok L text this.1 this.2

theorem numEnd_spec (L : Loc) (text : List Byte) (start : Nat) (h : start ≤ text.length) : ∀ e, numEnd L text start = some e → start < e ∧ e ≤ text.length := by
  intro e he
  unfold numEnd at he
  split at he
  · rename_i hc
    rw [Bool.and_eq_true, decide_eq_true_eq] at hc
    have := getNumber_le L (text.drop start)
    rw [List.length_drop] at this
    rw [Option.some.injEq] at he
    omega
  · exact absurd he (by simp)

theorem fromStart_ok {L : Loc} (hL : CtypeLaws L) {O : LegacyOps} (hO : OpsLaws O) {text : List Byte} (hs : ShortWords text) {start : Nat} (hlt : start < text.length)
    (h : 0 < O.alpha (text.drop start) ∨ (0 < start ∧ O.alpha (text.drop start) = 0 ∧
      ∃ p d r, text.drop start = p :: d :: r ∧ isNumPunc p = true ∧ isDigitB d = true)) :
    StepOk L text start (fromStart L O text start (O.alpha (text.drop start))) := by
  have hle := hO.alpha_le (text.drop start)
  have hb := hO.alpha_bytes (text.drop start)
  rw [List.length_drop] at hle
  have hsign : O.alpha (text.drop start) = 0 → ∃ p d r, text.drop start = p :: d :: r ∧ isNumPunc p = true ∧ isDigitB d = true := by
    intro h0
    rcases h with h | ⟨_, _, h⟩
    · omega
    · exact h
  have hst : 0 < start + O.alpha (text.drop start) := by
    rcases h with h | h <;> omega
  have hnumpos : O.alpha (text.drop start) = 0 → numEnd L text start ≠ none := by
    intro h0
    obtain ⟨p, d, r, e, hp, hd⟩ := hsign h0
    unfold numEnd
    rw [e, if_pos]
    · simp
    · simp [hp, getNumber_signed hL hp hd]
  have htok : O.alpha (text.drop start) = 0 → O.isTok (text.drop start) = true := by
    intro h0
    obtain ⟨p, d, r, e, hp, hd⟩ := hsign h0
    rw [e]
    exact hO.tok p d r hp hd
  have hhead : O.alpha (text.drop start) = 0 → ∀ c, (text.drop start).head? = some c → isNumPunc c = true := by
    intro h0 c hc
    obtain ⟨p, d, r, e, hp, _⟩ := hsign h0
    rw [e, List.head?_cons, Option.some.injEq] at hc
    exact hc ▸ hp
  generalize hn : O.alpha (text.drop start) = n at *
  have hzero : ∀ c, (text.drop (start + n)).head? = some c → isNumPunc c = false → 0 < n := by
    intro c hc hf
    rcases Nat.eq_zero_or_pos n with h0 | h0
    · rw [h0, Nat.add_zero] at hc
      rw [hhead h0 c hc] at hf
      exact absurd hf (by simp)
    · exact h0
  unfold fromStart
  dsimp only
  split
  · rename_i ht
    have hn0 : 0 < n := by
      rcases Nat.eq_zero_or_pos n with h0 | h0
      · rw [h0, Nat.add_zero, htok h0] at ht; exact absurd ht (by simp)
      · exact h0
    exact giveTs_ok L text (by omega) (by omega)
  · split
    · rename_i h39
      have hn0 := hzero 39 h39 (by decide)
      have hap := hO.apos_le (text.drop (start + n))
      rw [List.length_drop] at hap
      have hpp : 0 < O.apos (text.drop (start + n)) := by
        cases he : text.drop (start + n) with
        | nil => rw [he] at h39; simp at h39
        | cons x xs => rw [he, List.head?_cons, Option.some.injEq] at h39; subst h39; exact hO.apos_pos xs
      exact aposCase_ok L text (by omega) (by omega)
    · split
      · rename_i h38
        have hn0 := hzero 38 h38 (by decide)
        have := runLen_le (fun b => L.isAlpha b || b == 64 || b == 38) (text.drop (start + n))
        rw [List.length_drop] at this
        exact giveTs_ok L text (by omega) (by unfold companyLen; omega)
      · have hne := numEnd_spec L text start (by omega)
        unfold afterNumber
        split
        · rename_i hany
          cases hnu : numEnd L text start with
          | none => rw [hnu] at hany; simp at hany
          | some e => exact giveTs_ok L text (hne e hnu).1 (hne e hnu).2
        · split
          · rename_i hu
            have hn0 : 0 < n := by
              refine hzero 58 ?_ (by decide)
              rw [List.isPrefixOf_iff_prefix] at hu
              obtain ⟨r, hr⟩ := hu
              rw [← hr]
              rfl
            exact urlCase_ok hL hs hn0 hb hu
          · refine longCase_ok hL hs hst (by omega) hb hne ?_
            rcases Nat.eq_zero_or_pos n with h0 | h0
            · exact .inr (hnumpos h0)
            · exact .inl h0

/-! ### All the tokens -/

theorem legacyNext_ok {L : Loc} (hL : CtypeLaws L) {O : LegacyOps} (hO : OpsLaws O) {text : List Byte} (hs : ShortWords text) (hf : SignFirst text = false)
    {off : Nat} (hoff : off ≤ text.length) :
    (O.advance (text.drop off) = none ∧ legacyNext L O text off = .ok none) ∨
    ∃ (k : Nat) (txt : List Byte) (stop : Nat), O.advance (text.drop off) = some k ∧
      legacyNext L O text off = .ok (some (⟨txt, ((off + k : Nat) : Int), (stop : Int), 1⟩, stop)) ∧ off + k < stop ∧ stop ≤ text.length ∧
      GivenAs L (between text (off + k) stop) txt := by
  unfold legacyNext
  cases hadv : O.advance (text.drop off) with
  | none => exact .inl ⟨rfl, rfl⟩
  | some k =>
    right
    obtain ⟨h1, h2⟩ := hO.advance _ k hadv
    rw [List.length_drop] at h1
    rw [List.drop_drop] at h2
    have hst := fromStart_ok hL hO hs (start := off + k) (by omega) (by
      rcases h2 with h | ⟨h, p, d, r, e, hp, hd⟩
      · exact .inl h
      · refine .inr ⟨?_, h, p, d, r, e, hp, hd⟩
        rcases Nat.eq_zero_or_pos (off + k) with h0 | h0
        · rw [h0, List.drop_zero] at e
          rw [e] at hf
          simp only [SignFirst] at hf
          rw [← numPunc_numMark, hp, ← isDigitB_eq, hd] at hf
          exact absurd hf (by simp)
        · exact h0)
    obtain ⟨txt, stop, e, h3, h4, h5⟩ := hst
    exact ⟨k, txt, stop, rfl, e, h3, h4, h5⟩

theorem legacy_drain {L : Loc} (hL : CtypeLaws L) {O : LegacyOps} (hO : OpsLaws O) {text : List Byte} (hs : ShortWords text) (hf : SignFirst text = false)
    (P : Byte → Bool) (hsk : ∀ (s : List Byte) k, O.advance s = some k → ∀ b ∈ s.take k, P b = false)
    (hno : ∀ s : List Byte, O.advance s = none → ∀ b ∈ s, P b = false) :
    ∀ (f off : Nat), off ≤ text.length → text.length - off < f → ∃ tks, drain (legacyNext L O text) f off = .ok tks ∧
      (∀ tk ∈ tks, TokenOf L text tk ∧ (off : Int) ≤ tk.start) ∧ tks.Pairwise (fun a b => a.stop ≤ b.start) ∧
      ∀ (i : Nat) b, off ≤ i → text[i]? = some b → P b = true → ∃ tk ∈ tks, tk.start ≤ (i : Int) ∧ (i : Int) < tk.stop := by
  intro f
  induction f with
  | zero => intro off _ h; omega
  | succ f ih =>
    intro off hoff hfu
    rw [drain]
    rcases legacyNext_ok hL hO hs hf hoff with ⟨hadv, e⟩ | ⟨k, txt, stop, hadv, e, h1, h2, h3⟩
    · rw [e, Res.ok_bind]
      refine ⟨[], rfl, by simp, List.Pairwise.nil, ?_⟩
      intro i b hi hb hp
      have : b ∈ text.drop off := by
        apply List.mem_of_getElem? (i := i - off)
        rw [List.getElem?_drop, show off + (i - off) = i by omega, hb]
      rw [hno _ hadv b this] at hp
      exact absurd hp (by simp)
    · rw [e, Res.ok_bind]
      obtain ⟨tks, t1, t2, t3, t4⟩ := ih stop h2 (by omega)
      show ∃ tks', (drain (legacyNext L O text) f stop >>= fun tks => .ok (_ :: tks)) = .ok tks' ∧ _
      rw [t1, Res.ok_bind]
      refine ⟨_, rfl, ?_, ?_, ?_⟩
      · intro tk htk
        rcases List.mem_cons.1 htk with rfl | htk
        · exact ⟨⟨off + k, stop, rfl, rfl, h1, h2, rfl, h3⟩, by dsimp only; omega⟩
        · have := t2 tk htk
          exact ⟨this.1, by omega⟩
      · rw [List.pairwise_cons]
        exact ⟨fun tk htk => (t2 tk htk).2, t3⟩
      · intro i b hi hb hp
        by_cases hik : i < off + k
        · have : b ∈ (text.drop off).take k := by
            apply List.mem_of_getElem? (i := i - off)
            rw [List.getElem?_take, if_pos (by omega), List.getElem?_drop, show off + (i - off) = i by omega, hb]
          rw [hsk _ k hadv b this] at hp
          exact absurd hp (by simp)
        · by_cases his : i < stop
          · exact ⟨_, List.mem_cons_self, by dsimp only; omega, by dsimp only; omega⟩
          · obtain ⟨tk, k1, k2⟩ := t4 i b (by omega) hb hp
            exact ⟨tk, List.mem_cons_of_mem _ k1, k2⟩

/-! ### The single-byte tokenizer -/

theorem legacySkip_spec (L : Loc) : ∀ s : List Byte, legacySkip L s ≤ s.length ∧ (∀ b ∈ s.take (legacySkip L s), L.isAlnum b = false) ∧
    (legacySkip L s < s.length → ∃ b r, s.drop (legacySkip L s) = b :: r ∧
      (L.isAlnum b = true ∨ (L.isAlnum b = false ∧ isNumPunc b = true ∧ ∃ d r', r = d :: r' ∧ isDigitB d = true))) := by
  intro s
  induction s with
  | nil => simp [legacySkip]
  | cons b bs ih =>
    rw [legacySkip]
    split
    · rename_i h
      exact ⟨Nat.zero_le _, by simp, fun _ => ⟨b, bs, rfl, .inl h⟩⟩
    · rename_i h
      split
      · rename_i h2
        rw [Bool.and_eq_true] at h2
        refine ⟨Nat.zero_le _, by simp, fun _ => ⟨b, bs, rfl, .inr ⟨by simpa using h, h2.1, ?_⟩⟩⟩
        cases bs with
        | nil => simp at h2
        | cons d r => exact ⟨d, r, rfl, by simpa using h2.2⟩
      · obtain ⟨i1, i2, i3⟩ := ih
        refine ⟨by rw [List.length_cons]; omega, ?_, ?_⟩
        · intro x hx
          rw [List.take_succ_cons, List.mem_cons] at hx
          rcases hx with rfl | hx
          · simpa using h
          · exact i2 x hx
        · intro hlt
          rw [List.length_cons] at hlt
          rw [List.drop_succ_cons]
          exact i3 (by omega)

theorem ascii_laws {L : Loc} (hL : CtypeLaws L) : OpsLaws (LegacyOps.ascii L) where
  advance := by
    intro s k h
    simp only [LegacyOps.ascii] at h ⊢
    split at h
    · rename_i hlt
      rw [Option.some.injEq] at h
      subst h
      obtain ⟨_, _, h3⟩ := legacySkip_spec L s
      obtain ⟨b, r, e, hb⟩ := h3 hlt
      refine ⟨hlt, ?_⟩
      rw [e]
      rcases hb with hb | ⟨hb, hp, d, r', rfl, hd⟩
      · left
        simp [runLen, List.takeWhile_cons, hb]
      · right
        exact ⟨by simp [runLen, List.takeWhile_cons, hb], b, d, r', rfl, hp, hd⟩
    · exact absurd h (by simp)
  alpha_le s := runLen_le _ s
  alpha_bytes s b hb := alnum_not_mark hL (mem_take_runLen (p := L.isAlnum) hb)
  tok p d r hp hd := by
    simp only [LegacyOps.ascii, legacyIsTok]
    have h32 : p ≠ 32 := by rintro rfl; exact absurd hp (by decide)
    rw [hL.space p (.inl ⟨numPunc_mark hp, h32⟩), hp]
    simp
  apos_le s := runLen_le _ s
  apos_pos r := by simp [LegacyOps.ascii, runLen, List.takeWhile_cons]

/-! ### The multi-byte tokenizer -/

theorem mbNextChar_cons {M : MbLoc} {al : Nat → Bool} (hM : AsciiSafe M al) (b : Byte) (bs : List Byte) :
    0 < (mbNextChar M (b :: bs)).2 ∧ (mbNextChar M (b :: bs)).2 ≤ (b :: bs).length ∧
    ((b.toNat < 128 ∧ mbNextChar M (b :: bs) = (b.toNat, 1)) ∨ ∀ x ∈ (b :: bs).take (mbNextChar M (b :: bs)).2, 128 ≤ x.toNat) := by
  rcases Nat.lt_or_ge b.toNat 128 with h | h
  · have e : mbNextChar M (b :: bs) = (b.toNat, 1) := by rw [mbNextChar, hM.ascii b bs h]
    rw [e]
    exact ⟨by simp, by simp, .inl ⟨h, rfl⟩⟩
  · have recv : ∀ (s : List Byte) (k : Nat), ∃ n, mbRecover M s k = ((mbRecover M s k).1, k + n) ∧ n ≤ s.length ∧ ∀ x ∈ s.take n, 128 ≤ x.toNat := by
      intro s
      induction s with
      | nil => intro k; exact ⟨0, rfl, Nat.le_refl _, by simp⟩
      | cons x xs ih =>
        intro k
        rw [mbRecover]
        cases hd : M.decode (x :: xs) with
        | some r => exact ⟨0, rfl, Nat.zero_le _, by simp⟩
        | none =>
          have hx128 : 128 ≤ x.toNat := by
            rcases Nat.lt_or_ge x.toNat 128 with h' | h'
            · rw [hM.ascii x xs h'] at hd
              exact absurd hd (by simp)
            · exact h'
          obtain ⟨n, n1, n2, n3⟩ := ih (k + 1)
          refine ⟨n + 1, ?_, by rw [List.length_cons]; omega, ?_⟩
          · show mbRecover M xs (k + 1) = _
            rw [n1]
            show _ = ((mbRecover M xs (k + 1)).1, k + (n + 1))
            rw [n1, show k + 1 + n = k + (n + 1) by omega]
          · intro y hy
            rw [List.take_succ_cons, List.mem_cons] at hy
            rcases hy with rfl | hy
            · exact hx128
            · exact n3 y hy
    rw [mbNextChar]
    cases hd : M.decode (b :: bs) with
    | some r =>
      obtain ⟨w, n⟩ := r
      obtain ⟨_, w1, w2, w3⟩ := hM.wide b bs w n h hd
      exact ⟨w1, w2, .inr w3⟩
    | none =>
      obtain ⟨n, n1, n2, n3⟩ := recv bs 1
      show 0 < (mbRecover M bs 1).2 ∧ (mbRecover M bs 1).2 ≤ _ ∧ (_ ∨ _)
      rw [n1]
      refine ⟨by dsimp only; omega, by rw [List.length_cons]; dsimp only; omega, .inr ?_⟩
      intro x hx
      dsimp only at hx
      rw [Nat.add_comm, List.take_succ_cons, List.mem_cons] at hx
      rcases hx with rfl | hx
      · exact h
      · exact n3 x hx

theorem wide_not_mark {b : Byte} (h : 128 ≤ b.toNat) : isMark b = false := by
  cases hm : isMark b with
  | false => rfl
  | true =>
    simp only [isMark, List.contains_iff_mem, List.mem_cons, List.not_mem_nil, or_false] at hm
    rcases hm with rfl | rfl | rfl | rfl | rfl | rfl | rfl | rfl | rfl | rfl | rfl <;> exact absurd h (by decide)

theorem mbRun_spec {M : MbLoc} {al : Nat → Bool} (hM : AsciiSafe M al) (p : Nat → Bool) : ∀ (f : Nat) (s : List Byte),
    mbRun M p f s ≤ s.length ∧ ((∀ b : Byte, isMark b = true → p b.toNat = false) → ∀ b ∈ s.take (mbRun M p f s), isMark b = false) := by
  intro f
  induction f with
  | zero => intro s; simp [mbRun]
  | succ f ih =>
    intro s
    rw [mbRun]
    cases s with
    | nil => simp [mbNextChar]
    | cons b bs =>
      split
      · rename_i hc
        rw [Bool.and_eq_true] at hc
        obtain ⟨c1, c2, c3⟩ := mbNextChar_cons hM b bs
        obtain ⟨i1, i2⟩ := ih ((b :: bs).drop (mbNextChar M (b :: bs)).2)
        rw [List.length_drop] at i1
        refine ⟨by omega, ?_⟩
        intro hp x hx
        rw [List.take_add, List.mem_append] at hx
        rcases hx with hx | hx
        · rcases c3 with ⟨_, e⟩ | c3
          · rw [e, List.take_succ_cons, List.take_zero, List.mem_singleton] at hx
            subst hx
            cases hm : isMark x with
            | false => rfl
            | true =>
              have := hc.2
              rw [e, hp x hm] at this
              exact absurd this (by simp)
          · exact wide_not_mark (c3 x hx)
        · exact i2 hp x hx
      · simp

theorem mbSkip_spec {M : MbLoc} {al : Nat → Bool} (hM : AsciiSafe M al) : ∀ (f : Nat) (s : List Byte) (k : Nat), mbSkip M al f s = some k →
    k < s.length ∧ ((0 < (mbNextChar M (s.drop k)).1 ∧ al (mbNextChar M (s.drop k)).1 = true) ∨
      ((mbNextChar M (s.drop k)).1 = 0 ∨ al (mbNextChar M (s.drop k)).1 = false) ∧ ∃ p d r, s.drop k = p :: d :: r ∧ isNumPunc p = true ∧ isDigitB d = true) := by
  intro f
  induction f with
  | zero => intro s k h; simp [mbSkip] at h
  | succ f ih =>
    intro s k h
    rw [mbSkip] at h
    cases s with
    | nil => simp [mbNextChar] at h
    | cons b bs =>
      split at h
      · exact absurd h (by simp)
      · rename_i h0
        split at h
        · rename_i ha
          rw [Option.some.injEq] at h
          subst h
          exact ⟨by simp, .inl ⟨by rw [List.drop_zero]; omega, by rw [List.drop_zero]; exact ha⟩⟩
        · rename_i ha
          split at h
          · rename_i hn
            rw [Option.some.injEq] at h
            subst h
            rw [Bool.and_eq_true] at hn
            refine ⟨by simp, .inr ⟨.inr (by rw [List.drop_zero]; simpa using ha), ?_⟩⟩
            cases bs with
            | nil => simp at hn
            | cons d r => exact ⟨b, d, r, rfl, by simpa using hn.1, by simpa using hn.2⟩
          · obtain ⟨c1, c2, _⟩ := mbNextChar_cons hM b bs
            rw [Option.map_eq_some_iff] at h
            obtain ⟨k', h1, rfl⟩ := h
            obtain ⟨i1, i2⟩ := ih _ k' h1
            rw [List.length_drop] at i1
            rw [List.drop_drop] at i2
            exact ⟨by omega, i2⟩

theorem mb_laws {M : MbLoc} {al : Nat → Bool} (hM : AsciiSafe M al) : OpsLaws (LegacyOps.mb M al) where
  advance := by
    intro s k h
    obtain ⟨h1, h2⟩ := mbSkip_spec hM _ s k h
    refine ⟨h1, ?_⟩
    rcases h2 with ⟨h2, h3⟩ | ⟨h2, h3⟩
    · left
      have hpos : 0 < mbRun M al ((s.drop k).length + 1) (s.drop k) := by
        rw [mbRun, if_pos (by simp only [h3, Bool.and_true, ne_eq, decide_not, Bool.not_eq_true', decide_eq_false_iff_not]; omega)]
        cases hd : s.drop k with
        | nil => rw [hd] at h2; simp [mbNextChar] at h2
        | cons b bs => have := (mbNextChar_cons hM b bs).1; omega
      simp only [LegacyOps.mb]
      split <;> omega
    · right
      refine ⟨?_, h3⟩
      have : mbRun M al ((s.drop k).length + 1) (s.drop k) = 0 := by
        rw [mbRun]
        rcases h2 with h2 | h2 <;> simp [h2]
      simp only [LegacyOps.mb, this]
      rfl
  alpha_le s := by
    have := (mbRun_spec hM al (s.length + 1) s).1
    simp only [LegacyOps.mb]
    split <;> omega
  alpha_bytes s b hb := by
    refine (mbRun_spec hM al (s.length + 1) s).2 hM.mark b ?_
    simp only [LegacyOps.mb] at hb
    have e : s.take (if 255 < mbRun M al (s.length + 1) s then 254 else mbRun M al (s.length + 1) s) =
        (s.take (mbRun M al (s.length + 1) s)).take (if 255 < mbRun M al (s.length + 1) s then 254 else mbRun M al (s.length + 1) s) := by
      rw [List.take_take]
      congr 1
      split <;> omega
    rw [e] at hb
    exact List.mem_of_mem_take hb
  tok p d r hp hd := by
    simp only [LegacyOps.mb, mbIsTok]
    have h32 : p ≠ 32 := by rintro rfl; exact absurd hp (by decide)
    have hsp := hM.space p (numPunc_mark hp) h32
    have h128 : p.toNat < 128 := by
      rcases Nat.lt_or_ge p.toNat 128 with h | h
      · exact h
      · have := wide_not_mark h
        rw [numPunc_mark hp] at this
        exact absurd this (by simp)
    rw [if_neg (by simp), hM.ascii p (d :: r) h128]
    dsimp only
    rw [hsp]
    simp only [isNumPunc, Bool.or_eq_true, beq_iff_eq] at hp
    rcases hp with ((((rfl | rfl) | rfl) | rfl) | rfl) | rfl <;> simp
  apos_le s := (mbRun_spec hM (fun w => M.isAlpha w || w == 39) (s.length + 1) s).1
  apos_pos r := by
    simp only [LegacyOps.mb]
    have e : mbNextChar M (39 :: r) = (39, 1) := by
      rw [mbNextChar, hM.ascii 39 r (by decide)]
      rfl
    rw [mbRun, e]
    simp
    omega

end Ferret.Ana
