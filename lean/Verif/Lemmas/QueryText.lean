import Verif.Model.QueryText

/-! The text of queries: buffers, numbers, formats, and the functions `to_s`. -/

namespace Ferret.QText

open Ferret.Spec
open Ferret.QP (Fld Occ)

/-! ### Buffers -/

theorem put_ok {cap : Nat} {txt s : List Char} (h : txt.length + s.length ≤ cap) : Buf.put ⟨cap, txt⟩ s = .ok ⟨cap, txt ++ s⟩ := by
  unfold Buf.put; rw [if_pos h]

theorem print_ok {cap : Nat} {txt s : List Char} (h : txt.length + s.length < cap) : Buf.print ⟨cap, txt⟩ s = .ok ⟨cap, txt ++ s⟩ := by
  unfold Buf.print; rw [if_pos h]

theorem done_ok {cap : Nat} {txt : List Char} (h : txt.length < cap) : Buf.done ⟨cap, txt⟩ = .ok txt := by
  unfold Buf.done; rw [if_pos h]

theorem setLast_ok {cap : Nat} {txt : List Char} {d c : Char} : Buf.setLast ⟨cap, txt ++ [d]⟩ c = .ok ⟨cap, txt ++ [c]⟩ := by
  unfold Buf.setLast
  rw [if_neg (by simp)]
  simp

/-! ### Numbers -/

theorem dropZeros_spec (w : List Char) : ∀ r : List Char, r ≠ [] → (∀ c ∈ r, c.isDigit = true) →
    dropZeros (r ++ '.' :: w) = .ok ((if r.all (· = '0') then ['0'] else r.dropWhile (· = '0')) ++ '.' :: w)
  | [], h, _ => absurd rfl h
  | c :: r, _, hd => by
    rw [List.cons_append, dropZeros.eq_def]
    simp only
    by_cases hc : c = '0'
    · subst hc
      rw [if_pos rfl]
      cases r with
      | nil =>
        simp only [List.nil_append]
        rw [if_neg (by decide)]
        rfl
      | cons d r' =>
        simp only [List.cons_append]
        rw [if_pos (hd d (by simp))]
        have := dropZeros_spec w (d :: r') (by simp) (fun x hx => hd x (List.mem_cons_of_mem _ hx))
        rw [List.cons_append] at this
        rw [this]
        simp
    · rw [if_neg hc]
      simp [hc]

theorem noTail_rev (ds : List Char) : (if ds.reverse.all (· = '0') then ['0'] else ds.reverse.dropWhile (· = '0')).reverse = noTail ds := by
  unfold noTail
  by_cases h : ds.all (· = '0') = true
  · rw [if_pos h, if_pos (by rw [List.all_reverse]; exact h)]; rfl
  · rw [if_neg h, if_neg (by rw [List.all_reverse]; exact h)]

theorem span_text {d : Dec} (h1 : ∀ c ∈ d.frac, c.isDigit = true) (h2 : ∀ c ∈ d.whole, c ≠ 'e') (h3 : d.exp = [] ∨ ∃ x, d.exp = 'e' :: x) :
    (d.text.takeWhile (· ≠ 'e'), d.text.dropWhile (· ≠ 'e')) = (d.whole ++ '.' :: d.frac, d.exp) := by
  have ha : ∀ c ∈ d.whole ++ '.' :: d.frac, (decide (c ≠ 'e')) = true := by
    intro c hc
    rcases List.mem_append.1 hc with hc | hc
    · simpa using h2 c hc
    · rcases List.mem_cons.1 hc with rfl | hc
      · decide
      · have := h1 c hc
        have : c ≠ 'e' := by rintro rfl; revert this; decide
        simpa using this
  unfold Dec.text
  rw [show d.whole ++ '.' :: d.frac ++ d.exp = (d.whole ++ '.' :: d.frac) ++ d.exp by simp]
  rw [List.takeWhile_append_of_pos ha, List.dropWhile_append_of_pos ha]
  rcases h3 with h | ⟨x, h⟩ <;> simp [h]

theorem noTail_length {ds : List Char} (h : ds ≠ []) : (noTail ds).length ≤ ds.length := by
  unfold noTail
  split
  · cases ds with
    | nil => exact absurd rfl h
    | cons => simp
  · rw [List.length_reverse]
    exact Nat.le_trans (List.dropWhile_sublist _).length_le (by simp)

theorem short_length {d : Dec} (h : d.frac ≠ []) : d.short.length ≤ d.text.length := by
  have := noTail_length h
  unfold Dec.short Dec.text
  simp only [List.length_append, List.length_cons]
  omega

variable {N : Type} {nm : Nums N}

theorem text_length (hn : nm.Ok) {n : N} (hf : nm.finite n = true) : (nm.text n).length ≤ 14 := by
  unfold Nums.text
  split
  · exact Nat.le_trans (short_length (hn.frac n hf)) (hn.digits n hf _ (Or.inr rfl)).2.2.2
  · rename_i h
    exact Nat.le_trans (short_length h) (hn.digits n hf _ (Or.inl rfl)).2.2.2

theorem dropZeros_dec {d : Dec} (h1 : ∀ c ∈ d.frac, c.isDigit = true) (h : d.frac ≠ []) :
    dropZeros (d.whole ++ '.' :: d.frac).reverse = .ok ((d.whole ++ '.' :: noTail d.frac).reverse) := by
  have := dropZeros_spec d.whole.reverse d.frac.reverse (by simpa using h) (by simpa using h1)
  rw [show (d.whole ++ '.' :: d.frac).reverse = d.frac.reverse ++ '.' :: d.whole.reverse by simp, this]
  rw [show (d.whole ++ '.' :: noTail d.frac).reverse = (noTail d.frac).reverse ++ '.' :: d.whole.reverse by simp]
  rw [← noTail_rev, List.reverse_reverse]

theorem dbl_ok (hn : nm.Ok) {n : N} (hf : nm.finite n = true) {room : Nat} (hr : 15 ≤ room) : dblToS nm room n = .ok (some (nm.text n)) := by
  obtain ⟨g1, g2, g3, g4⟩ := hn.digits n hf _ (Or.inl rfl)
  obtain ⟨e1, e2, e3, e4⟩ := hn.digits n hf _ (Or.inr rfl)
  have e5 := hn.frac n hf
  unfold dblToS
  rw [if_neg (by simp [hf]), if_neg (by omega), span_text g1 g2 g3]
  simp only
  unfold Nums.text
  by_cases h : (nm.g n).frac = []
  · rw [if_pos h]
    have : ((nm.g n).whole ++ '.' :: (nm.g n).frac).getLast? = some '.' := by rw [h]; simp
    rw [this]
    simp only
    rw [if_neg (by decide), if_neg (by omega), span_text e1 e2 e3]
    simp only [Res.ok_bind]
    rw [dropZeros_dec e1 e5]
    simp only [Res.ok_bind, List.reverse_reverse, Res.pure_eq]
    rfl
  · rw [if_neg h]
    obtain ⟨c, hc⟩ : ∃ c, (nm.g n).frac.getLast? = some c := by
      cases hx : (nm.g n).frac.getLast? with
      | none => exact absurd (List.getLast?_eq_none_iff.1 hx) h
      | some c => exact ⟨c, rfl⟩
    have : ((nm.g n).whole ++ '.' :: (nm.g n).frac).getLast? = some c := by
      rw [List.getLast?_append, List.getLast?_cons, hc]; rfl
    rw [this]
    simp only
    rw [if_pos (g1 c (List.mem_of_getLast? hc))]
    simp only [Res.ok_bind]
    rw [dropZeros_dec g1 h]
    simp only [Res.ok_bind, List.reverse_reverse, Res.pure_eq]
    rfl

theorem bufDbl_ok (hn : nm.Ok) {n : N} (hf : nm.finite n = true) {cap : Nat} {txt : List Char} (h : txt.length + 15 ≤ cap) :
    Buf.dbl nm ⟨cap, txt⟩ n = .ok ⟨cap, txt ++ nm.text n⟩ := by
  unfold Buf.dbl
  simp only
  rw [dbl_ok hn hf (by omega)]
  rfl

theorem endBoost_ok (hn : nm.Ok) {n : N} (hf : nm.finite n = true) {cap : Nat} {txt : List Char} (h : txt.length + 16 ≤ cap) :
    endBoost nm n ⟨cap, txt⟩ = .ok (txt ++ boostText nm n) := by
  unfold endBoost boostText
  rw [done_ok (by omega)]
  simp only [Res.ok_bind]
  by_cases ho : nm.one n = true
  · simp [ho]
  · rw [if_neg ho, if_neg ho, put_ok (by simp; omega)]
    simp only [Res.ok_bind]
    rw [bufDbl_ok hn hf (by simp; omega)]
    simp

/-! ### Formats -/

theorem digitsGo_length : ∀ (k n : Nat) (acc : List Char), (digitsGo k n acc).length ≤ k + acc.length
  | 0, _, acc => by simp [digitsGo]
  | k + 1, n, acc => by
    rw [digitsGo]
    split
    · simp; omega
    · have := digitsGo_length k (n / 10) (Char.ofNat (48 + n % 10) :: acc)
      simp at this
      omega

theorem intText_length (i : Int) : (intText i).length ≤ 21 := by
  have := digitsGo_length 20 i.natAbs []
  unfold intText
  split <;> simp at this ⊢ <;> omega

theorem fmtGo_spec (hn : nm.Ok) : ∀ (p : List Char) (args : List (FArg N)) (t txt : List Char) (cap : Nat), formatted nm p args = some t →
    txt.length + p.length + 1 ≤ cap → fmtGo nm p args ⟨cap, txt⟩ = .ok (txt ++ t)
  | [], args, t, txt, cap, h, hc => by
    simp only [formatted, Option.some.injEq] at h
    subst h
    rw [fmtGo, done_ok (by simp at hc; omega), List.append_nil]
  | [c], args, t, txt, cap, h, hc => by
    simp only [List.length_cons, List.length_nil] at hc
    rw [formatted] at h
    rw [fmtGo]
    by_cases h1 : c = '%'
    · rw [if_pos h1] at h; cases h
    · rw [if_neg h1] at h ⊢
      cases h
      rw [put_ok (by simp; omega)]
      simp only [Res.ok_bind]
      rw [done_ok (by simp; omega)]
  | c :: d :: p, args, t, txt, cap, h, hc => by
    simp only [List.length_cons] at hc
    rw [formatted] at h
    rw [fmtGo]
    by_cases h1 : c = '%'
    · rw [if_pos h1] at h ⊢
      by_cases hs : d = 's'
      · rw [if_pos hs] at h ⊢
        obtain ⟨x, hx, h⟩ := Option.bind_eq_some_iff.1 h
        obtain ⟨t', ht, rfl⟩ := Option.map_eq_some_iff.1 h
        rw [hx]
        simp only [Res.ofOption, Res.ok_bind]
        rw [put_ok (by omega)]
        simp only [Res.ok_bind]
        rw [fmtGo_spec hn p _ t' _ _ ht (by simp; omega)]
        simp
      · rw [if_neg hs] at h ⊢
        by_cases hf : d = 'f'
        · rw [if_pos hf] at h ⊢
          obtain ⟨x, hx, h⟩ := Option.bind_eq_some_iff.1 h
          obtain ⟨t', ht, rfl⟩ := Option.map_eq_some_iff.1 h
          rw [hx]
          simp only [Res.ofOption, Res.ok_bind]
          rw [done_ok (by omega)]
          simp only [Res.ok_bind]
          cases hfin : nm.finite x.1 with
          | false =>
            have : dblToS nm (cap + 32 - txt.length) x.1 = .ok none := by unfold dblToS; simp [hfin]
            rw [this]
            simp only [Res.ok_bind]
            rw [fmtGo_spec hn p _ t' _ _ ht (by simp; omega)]
            simp
          | true =>
            rw [dbl_ok hn hfin (by omega)]
            have := text_length hn hfin
            simp only [Res.ok_bind]
            rw [fmtGo_spec hn p _ t' _ _ ht (by simp; omega)]
            simp
        · rw [if_neg hf] at h ⊢
          by_cases hd : d = 'd'
          · rw [if_pos hd] at h ⊢
            obtain ⟨x, hx, h⟩ := Option.bind_eq_some_iff.1 h
            obtain ⟨t', ht, rfl⟩ := Option.map_eq_some_iff.1 h
            rw [hx]
            simp only [Res.ofOption, Res.ok_bind]
            rw [done_ok (by omega)]
            have := intText_length x.1
            simp only [Res.ok_bind]
            rw [print_ok (by omega)]
            simp only [Res.ok_bind]
            rw [fmtGo_spec hn p _ t' _ _ ht (by simp; omega)]
            simp
          · rw [if_neg hd] at h ⊢
            obtain ⟨t', ht, rfl⟩ := Option.map_eq_some_iff.1 h
            rw [put_ok (by simp; omega)]
            simp only [Res.ok_bind]
            rw [fmtGo_spec hn p _ t' _ _ ht (by simp; omega)]
            simp
    · rw [if_neg h1] at h ⊢
      obtain ⟨t', ht, rfl⟩ := Option.map_eq_some_iff.1 h
      rw [put_ok (by simp; omega)]
      simp only [Res.ok_bind]
      rw [fmtGo_spec hn (d :: p) args t' _ _ ht (by simp; omega)]
      simp

theorem strfmt_spec (hn : nm.Ok) {p : List Char} {args : List (FArg N)} {t : List Char} (h : formatted nm p args = some t) : strfmt nm p args = .ok t := by
  unfold strfmt alloc
  rw [fmtGo_spec hn p args t [] _ h (by simp)]
  rfl

/-! ### Words and ranges -/

theorem putField_ok {df : Option Fld} {f : Fld} {cap : Nat} {txt : List Char} (h : txt.length + f.length + 1 ≤ cap) :
    putField df f ⟨cap, txt⟩ = .ok ⟨cap, txt ++ fieldText df f⟩ := by
  unfold putField fieldText
  split
  · simp
  · rw [put_ok (by simp; omega)]

theorem printField_ok {df : Option Fld} {f : Fld} {cap : Nat} {txt : List Char} (h : txt.length + f.length + 1 < cap) :
    printField df f ⟨cap, txt⟩ = .ok ⟨cap, txt ++ fieldText df f⟩ := by
  unfold printField fieldText
  split
  · simp
  · rw [print_ok (by simp; omega)]

theorem fieldText_length (df : Option Fld) (f : Fld) : (fieldText df f).length ≤ f.length + 1 := by
  unfold fieldText; split <;> simp

theorem termToS_ok (hn : nm.Ok) (df : Option Fld) (f : Fld) (w : List Char) {x : N} (hf : nm.finite x = true) :
    termToS nm df f w x = .ok (fieldText df f ++ w ++ boostText nm x) := by
  have := fieldText_length df f
  unfold termToS alloc
  rw [putField_ok (by simp; omega)]
  simp only [Res.ok_bind, List.nil_append]
  rw [put_ok (by omega)]
  simp only [Res.ok_bind]
  rw [endBoost_ok hn hf (by simp; omega)]

theorem preToS_ok (hn : nm.Ok) (df : Option Fld) (f : Fld) (w : List Char) {x : N} (hf : nm.finite x = true) :
    preToS nm df f w x = .ok (fieldText df f ++ w ++ '*' :: boostText nm x) := by
  have := fieldText_length df f
  unfold preToS alloc
  simp only
  rw [printField_ok (by simp; omega)]
  simp only [Res.ok_bind, List.nil_append]
  rw [print_ok (by simp; omega)]
  simp only [Res.ok_bind]
  rw [endBoost_ok hn hf (by simp; omega)]
  simp

theorem wildToS_ok (hn : nm.Ok) (df : Option Fld) (f : Fld) (w : List Char) {x : N} (hf : nm.finite x = true) :
    wildToS nm df f w x = .ok (fieldText df f ++ w ++ boostText nm x) := by
  have := fieldText_length df f
  unfold wildToS alloc
  simp only
  rw [printField_ok (by simp; omega)]
  simp only [Res.ok_bind, List.nil_append]
  rw [print_ok (by omega)]
  simp only [Res.ok_bind]
  rw [endBoost_ok hn hf (by simp; omega)]

theorem fuzzyToS_ok (hn : nm.Ok) (df : Option Fld) (f : Fld) (w : List Char) {sim x : N} (hs : nm.finite sim = true) (hf : nm.finite x = true) :
    fuzzyToS nm df f w sim x = .ok (fieldText df f ++ w ++ '~' :: (if nm.half sim then [] else nm.text sim) ++ boostText nm x) := by
  have := fieldText_length df f
  have h14 := text_length hn hs
  unfold fuzzyToS alloc
  simp only
  rw [printField_ok (by simp; omega)]
  simp only [Res.ok_bind, List.nil_append]
  rw [print_ok (by simp; omega)]
  simp only [Res.ok_bind]
  unfold simTo
  by_cases hh : nm.half sim = true
  · simp only [hh, if_true, Res.ok_bind]
    rw [endBoost_ok hn hf (by simp; omega)]
    simp
  · rw [if_neg hh, if_neg hh, dbl_ok hn hs (by simp; omega)]
    simp only [Res.ok_bind, Res.pure_eq]
    rw [endBoost_ok hn hf (by simp; omega)]
    simp

theorem rangeToS_ok (hn : nm.Ok) (df : Option Fld) (f : Fld) (lo hi : Option (List Char)) (i j : Bool) {x : N} (hf : nm.finite x = true) :
    rangeToS nm df f lo hi i j x = .ok (fieldText df f ++ rangeText lo hi i j ++ boostText nm x) := by
  have := fieldText_length df f
  unfold rangeToS alloc rangeText
  simp only
  rw [putField_ok (by simp; omega)]
  simp only [Res.ok_bind, List.nil_append]
  cases lo with
  | none =>
    cases hi with
    | none =>
      simp only [Option.isSome_none, Bool.false_eq_true, and_self, if_false, Option.getD_none]
      rw [put_ok (by simp; omega)]
      simp only [Res.ok_bind]
      rw [put_ok (by simp; omega)]
      simp only [Res.ok_bind]
      rw [endBoost_ok hn hf (by simp; omega)]
      simp
    | some h =>
      simp only [Option.isSome_none, Bool.false_eq_true, false_and, if_false, Option.getD_none, Option.getD_some]
      rw [put_ok (by simp; omega)]
      simp only [Res.ok_bind]
      rw [put_ok (by simp; omega)]
      simp only [Res.ok_bind]
      rw [put_ok (by simp; omega)]
      simp only [Res.ok_bind]
      rw [endBoost_ok hn hf (by simp; omega)]
      simp
  | some l =>
    cases hi with
    | none =>
      simp only [Option.isSome_none, Bool.false_eq_true, and_false, if_false, Option.getD_none, Option.getD_some]
      rw [put_ok (by simp; omega)]
      simp only [Res.ok_bind]
      rw [put_ok (by simp; omega)]
      simp only [Res.ok_bind]
      rw [put_ok (by simp; omega)]
      simp only [Res.ok_bind]
      rw [endBoost_ok hn hf (by simp; omega)]
      simp
    | some h =>
      simp only [Option.isSome_some, and_self, if_true, Option.getD_some]
      rw [put_ok (by simp; omega)]
      simp only [Res.ok_bind]
      rw [put_ok (by simp; omega)]
      simp only [Res.ok_bind]
      rw [put_ok (by simp; omega)]
      simp only [Res.ok_bind]
      rw [put_ok (by simp; omega)]
      simp only [Res.ok_bind]
      rw [put_ok (by simp; omega)]
      simp only [Res.ok_bind]
      rw [endBoost_ok hn hf (by simp; omega)]
      simp

theorem rangeFilterToS_ok (f : Fld) (lo hi : Option (List Char)) (i j : Bool) : rangeFilterToS (N := N) f lo hi i j = .ok (f ++ ':' :: rangeText lo hi i j) := by
  unfold rangeFilterToS
  have h0 : (⟨fun _ => true, fun _ => true, fun _ => true, fun _ => ⟨['0'], ['0'], []⟩, fun _ => ⟨['0'], ['0'], []⟩⟩ : Nums Unit).Ok :=
    ⟨by
      intro n _ d hd
      have : d = ⟨['0'], ['0'], []⟩ := by rcases hd with h | h <;> exact h
      subst this
      exact ⟨by decide, by decide, Or.inl rfl, by decide⟩, by simp⟩
  have := rangeToS_ok h0 none f lo hi i j (x := ()) rfl
  rw [show fieldText none f = f ++ [':'] from if_neg (by simp)] at this
  simp only [boostText, if_true, List.append_nil] at this
  rw [show f ++ ':' :: rangeText lo hi i j = f ++ [':'] ++ rangeText lo hi i j by simp, ← this]
  rfl

/-! ### Texts side by side -/

theorem joinedBy_cons (sep s : List Char) (ss : List (List Char)) : joinedBy sep (s :: ss) = s ++ ss.flatMap (sep ++ ·) := by
  induction ss generalizing s with
  | nil => simp [joinedBy]
  | cons t ss ih => rw [joinedBy, ih t]; simp; simp

theorem spanGo_later (cap : Nat) : ∀ (ss : List (List Char)) (txt : List Char), txt.length + (ss.map fun s => s.length + 1).sum < cap →
    spanGo ss false ⟨cap, txt⟩ = .ok ⟨cap, txt ++ ss.flatMap ([','] ++ ·)⟩
  | [], txt, _ => by simp [spanGo]
  | s :: ss, txt, h => by
    simp only [List.map_cons, List.sum_cons] at h
    rw [spanGo]
    simp only [Bool.false_eq_true, if_false]
    rw [put_ok (by simp; omega)]
    simp only [Res.ok_bind]
    rw [print_ok (by simp; omega)]
    simp only [Res.ok_bind]
    rw [spanGo_later cap ss _ (by simp; omega)]
    simp

theorem spanGo_ok {cap : Nat} {ss : List (List Char)} {txt : List Char} (h : txt.length + (ss.map List.length).sum + (ss.length - 1) < cap) :
    spanGo ss true ⟨cap, txt⟩ = .ok ⟨cap, txt ++ joinedBy [','] ss⟩ := by
  cases ss with
  | nil => simp [spanGo, joinedBy]
  | cons s ss =>
    have e : (ss.map fun s => s.length + 1).sum = (ss.map List.length).sum + ss.length := by
      clear h
      induction ss with
      | nil => rfl
      | cons a as ih => simp only [List.map_cons, List.sum_cons, List.length_cons, ih]; omega
    simp only [List.map_cons, List.sum_cons, List.length_cons] at h
    rw [spanGo]
    simp only [if_true, Res.ok_bind]
    rw [print_ok (by omega)]
    simp only [Res.ok_bind]
    rw [spanGo_later cap ss _ (by simp; omega), joinedBy_cons]
    simp

theorem joinedBy_length (ss : List (List Char)) (c : Char) : (joinedBy [c] ss).length = (ss.map List.length).sum + (ss.length - 1) := by
  cases ss with
  | nil => rfl
  | cons s ss =>
    rw [joinedBy_cons]
    induction ss with
    | nil => simp
    | cons t ss ih => simp at ih ⊢; omega

theorem sum_add (k : Nat) (ss : List (List Char)) : (ss.map fun s => s.length + k).sum = (ss.map List.length).sum + k * ss.length := by
  induction ss with
  | nil => rfl
  | cons a as ih => simp only [List.map_cons, List.sum_cons, List.length_cons, ih, Nat.mul_add]; omega

theorem spanOr_ok (ss : List (List Char)) : spanOrToS ss = .ok ("span_or[".toList ++ joinedBy [','] ss ++ [']']) := by
  unfold spanOrToS alloc
  have e : ("span_or[".toList).length = 8 := rfl
  have h2 := sum_add 2 ss
  have hj := joinedBy_length ss ','
  rw [print_ok (by simp only [List.length_nil, e]; omega)]
  simp only [Res.ok_bind, List.nil_append]
  rw [spanGo_ok (by omega)]
  simp only [Res.ok_bind]
  rw [put_ok (by simp only [List.length_append, e, List.length_cons, List.length_nil]; omega)]
  simp only [Res.ok_bind]
  rw [done_ok (by simp only [List.length_append, e, List.length_cons, List.length_nil]; omega)]

theorem spanWords_ok (ss : List (List Char)) : spanWordsToS ss = .ok ('[' :: joinedBy [','] ss ++ [']']) := by
  unfold spanWordsToS alloc
  have h2 := sum_add 2 ss
  have hj := joinedBy_length ss ','
  rw [put_ok (by simp; omega)]
  simp only [Res.ok_bind, List.nil_append]
  rw [spanGo_ok (by simp; omega)]
  simp only [Res.ok_bind]
  rw [put_ok (by simp; omega)]
  simp only [Res.ok_bind]
  rw [done_ok (by simp; omega)]
  simp

theorem spanNear_ok {ss : List (List Char)} (h : ss.length ≤ 39) : spanNearToS ss = .ok ("span_near[".toList ++ joinedBy [','] ss ++ [']']) := by
  unfold spanNearToS alloc
  have e : ("span_near[".toList).length = 10 := rfl
  have hj := joinedBy_length ss ','
  rw [print_ok (by simp only [List.length_nil, e]; omega)]
  simp only [Res.ok_bind, List.nil_append]
  rw [spanGo_ok (by omega)]
  simp only [Res.ok_bind]
  rw [put_ok (by simp only [List.length_append, e, List.length_cons, List.length_nil]; omega)]
  simp only [Res.ok_bind]
  rw [done_ok (by simp only [List.length_append, e, List.length_cons, List.length_nil]; omega)]

/-! ### Several words -/

theorem boostText_length (hn : nm.Ok) {n : N} (hf : nm.finite n = true) : (boostText nm n).length ≤ 15 := by
  have := text_length hn hf
  unfold boostText
  split <;> simp; omega

theorem wordBoost_ok (hn : nm.Ok) {n : N} (hf : nm.finite n = true) {cap : Nat} {txt : List Char} (h : txt.length + 16 ≤ cap) :
    wordBoost nm n ⟨cap, txt⟩ = .ok ⟨cap, txt ++ boostText nm n⟩ := by
  unfold wordBoost boostText
  by_cases ho : nm.one n = true
  · simp [ho]
  · rw [if_neg ho, if_neg ho, put_ok (by simp; omega)]
    simp only [Res.ok_bind]
    rw [bufDbl_ok hn hf (by simp; omega)]
    simp

theorem multiGo_ok (hn : nm.Ok) (cap : Nat) : ∀ (ws : List (List Char × N)) (txt : List Char), (∀ y ∈ ws, nm.finite y.2 = true) →
    txt.length + (ws.map fun y => y.1.length + 35).sum ≤ cap →
    multiGo nm ws ⟨cap, txt⟩ = .ok ⟨cap, txt ++ ws.flatMap fun y => y.1 ++ boostText nm y.2 ++ ['|']⟩ ∧
      (ws.flatMap fun y => y.1 ++ boostText nm y.2 ++ ['|']).length ≤ (ws.map fun y => y.1.length + 35).sum
  | [], txt, _, _ => by simp [multiGo]
  | (w, x) :: ws, txt, hf, h => by
    simp only [List.map_cons, List.sum_cons] at h
    have hx : nm.finite x = true := hf (w, x) (by simp)
    have h14 := text_length hn hx
    rw [multiGo]
    rw [print_ok (by omega)]
    simp only [Res.ok_bind]
    rw [wordBoost_ok hn hx (by simp; omega)]
    have hb := boostText_length hn hx
    simp only [Res.ok_bind]
    rw [put_ok (by simp; omega)]
    simp only [Res.ok_bind]
    obtain ⟨i1, i2⟩ := multiGo_ok hn cap ws (txt ++ w ++ boostText nm x ++ ['|']) (fun y hy => hf y (List.mem_cons_of_mem _ hy)) (by simp; omega)
    rw [i1]
    simp only [List.flatMap_cons, List.length_append, List.length_cons, List.length_nil, List.map_cons, List.sum_cons]
    exact ⟨by simp, by omega⟩

theorem flat_bar {α : Type} (g : α → List Char) (a : α) (as : List α) :
    ((a :: as).flatMap fun y => g y ++ ['|']) = joinedBy ['|'] ((a :: as).map g) ++ ['|'] := by
  rw [List.map_cons, joinedBy_cons]
  induction as generalizing a with
  | nil => simp
  | cons b bs ih =>
    have := ih b
    simp only [List.flatMap_cons, List.map_cons] at this ⊢
    simp at this ⊢
    rw [this]

theorem multiToS_ok (hn : nm.Ok) (df : Option Fld) (f : Fld) (ws : List (List Char × N)) {x : N} (hw : ∀ y ∈ ws, nm.finite y.2 = true) (hf : nm.finite x = true) :
    multiToS nm df f ws x = .ok (fieldText df f ++ '"' :: joinedBy ['|'] (ws.map fun x => x.1 ++ boostText nm x.2) ++ '"' :: boostText nm x) := by
  have := fieldText_length df f
  unfold multiToS alloc
  simp only
  rw [printField_ok (by simp; omega)]
  simp only [Res.ok_bind, List.nil_append]
  rw [put_ok (by simp; omega)]
  simp only [Res.ok_bind]
  obtain ⟨i1, i2⟩ := multiGo_ok hn ((ws.map fun y => y.1.length + 35).sum + f.length + 35) ws (fieldText df f ++ ['"']) hw (by simp; omega)
  rw [i1]
  simp only [Res.ok_bind]
  cases ws with
  | nil =>
    simp only [List.flatMap_nil, List.append_nil, List.getLast?_concat, if_true, List.map_nil, List.sum_nil, joinedBy]
    rw [put_ok (by simp; omega)]
    simp only [Res.ok_bind]
    rw [endBoost_ok hn hf (by simp; omega)]
    simp
  | cons a as =>
    rw [flat_bar (fun y : List Char × N => y.1 ++ boostText nm y.2)] at i2 ⊢
    rw [← List.append_assoc, List.getLast?_concat]
    simp only
    rw [if_neg (by decide), setLast_ok]
    simp only [Res.ok_bind]
    rw [endBoost_ok hn hf (by simp only [List.length_append, List.length_cons, List.length_nil] at i2 ⊢; omega)]
    simp

end Ferret.QText
