import Verif.Lemmas.QueryTextTree

/-!
C86: asking for the text of a query gives the texts of its parts and stays inside the memory it allocates, for every query
whose boosts are numbers, whose phrases have words at their places, and whose queries for spans near each other have at most
39 clauses. With 40 clauses or more, or an infinite boost, or for the text of search results with a hit, it does not.
-/

namespace Ferret.Props

open Ferret.Spec
open Ferret.QP (Fld Occ)

/-- The text of every query, as far as it has one. -/
theorem c86_text_partial {N : Type} {nm : Nums N} (hn : nm.Ok) {qs : List (Int × List (List Char)) → List (Int × List (List Char))} (hqs : SortsPlaces qs)
    (df : Option Fld) (q : TQ N) (h : Showable nm q) : QText.toS nm qs df q = .ok (textOf nm qs df q) :=
  QText.toS_ok hn hqs q h df

/-- Formats: everything that has a meaning is written as it. -/
theorem c86_format {N : Type} {nm : Nums N} (hn : nm.Ok) (fmt : List Char) (args : List (FArg N)) (t : List Char) (h : formatted nm fmt args = some t) :
    QText.strfmt nm fmt args = .ok t := QText.strfmt_spec hn h

/-- A format with a lone `%` at its end is read past its end. -/
theorem c86_format_end {N : Type} (nm : Nums N) (fmt : List Char) (h : '%' ∉ fmt) : QText.strfmt nm (fmt ++ ['%']) [] = .ub := by
  have go : ∀ (fmt : List Char), '%' ∉ fmt → ∀ (cap : Nat) (txt : List Char), txt.length + fmt.length ≤ cap →
      QText.fmtGo nm (fmt ++ ['%']) [] ⟨cap, txt⟩ = .ub := by
    intro fmt
    induction fmt with
    | nil => intro _ cap txt _; rw [List.nil_append, QText.fmtGo]; rfl
    | cons c p ih =>
      intro hc cap txt hl
      simp only [List.mem_cons, not_or] at hc
      simp only [List.length_cons] at hl
      have hx : QText.fmtGo nm ((c :: p) ++ ['%']) [] ⟨cap, txt⟩ = (QText.Buf.put ⟨cap, txt⟩ [c] >>= fun b => QText.fmtGo nm (p ++ ['%']) [] b) := by
        cases p with
        | nil =>
          show QText.fmtGo nm (c :: '%' :: []) [] ⟨cap, txt⟩ = _
          rw [QText.fmtGo, if_neg (fun h => hc.1 h.symm)]
          rfl
        | cons d p =>
          show QText.fmtGo nm (c :: d :: (p ++ ['%'])) [] ⟨cap, txt⟩ = _
          rw [QText.fmtGo, if_neg (fun h => hc.1 h.symm)]
          rfl
      rw [hx, QText.put_ok (by simp; omega), Res.ok_bind]
      exact ih hc.2 cap _ (by simp; omega)
  exact go fmt h _ _ (by simp; omega)

/-- Forty clauses and more of a query for spans near each other do not fit into what is allocated, whatever they are. -/
theorem c86_near_over {N : Type} {nm : Nums N} (hn : nm.Ok) {qs : List (Int × List (List Char)) → List (Int × List (List Char))} (hqs : SortsPlaces qs)
    (df : Option Fld) (cs : TList N) (h : ShowableList nm cs) (hl : 40 ≤ cs.length) : QText.toS nm qs df (.spanNear cs) = .ub := by
  rw [QText.toS, QText.listToS_ok hn hqs cs h, Res.ok_bind]
  exact QText.spanNear_over (by rw [QText.listText_length]; exact hl)

/-- An infinite boost: nothing is written behind the `^`, not even a zero. -/
theorem c86_infinite {N : Type} (nm : Nums N) (qs : List (Int × List (List Char)) → List (Int × List (List Char))) (df : Option Fld) (f : Fld) (w : List Char) (b : N)
    (h1 : nm.one b = false) (h2 : nm.finite b = false) : QText.toS nm qs df (.term f w b) = .ub := by
  have hfl := QText.fieldText_length df f
  rw [QText.toS]
  unfold QText.termToS QText.alloc
  rw [QText.putField_ok (by simp; omega), Res.ok_bind, List.nil_append, QText.put_ok (by omega), Res.ok_bind]
  unfold QText.endBoost
  rw [QText.done_ok (by simp; omega), Res.ok_bind, if_neg (by rw [h1]; simp), QText.put_ok (by simp; omega), Res.ok_bind]
  unfold QText.Buf.dbl QText.dblToS
  rw [if_pos h2]
  rfl

/-- The text of search results: with a hit, memory that has been freed is read. -/
theorem c86_hits {N : Type} {nm : Nums N} (hn : nm.Ok) (total : Int) (hits : List (Int × N)) :
    QText.hitsToS nm total hits = if hits = [] then .ok (intText total ++ " hits sorted by <score, doc_num>\n".toList) else .ub := by
  have hf : ∀ (d : Int) (s : N), ∃ t, QText.strfmt nm "\t%d:%f\n".toList [.int d, .dbl s] = .ok t := by
    intro d s
    exact ⟨_, QText.strfmt_spec hn (t := '\t' :: (intText d ++ ':' :: ((if nm.finite s then nm.text s else []) ++ ['\n']))) (by simp [formatted, nextInt, nextDbl])⟩
  have h0 : QText.strfmt nm "%d hits sorted by <score, doc_num>\n".toList [.int total] = .ok (intText total ++ " hits sorted by <score, doc_num>\n".toList) :=
    QText.strfmt_spec hn (by simp [formatted, nextInt])
  unfold QText.hitsToS
  rw [h0, Res.ok_bind]
  cases hits with
  | nil => rw [if_pos rfl]; rfl
  | cons a hs =>
    obtain ⟨d, s⟩ := a
    obtain ⟨t, ht⟩ := hf d s
    rw [if_neg (by simp), QText.hitsGo, ht, Res.ok_bind, if_pos rfl]
    cases hs with
    | nil => rfl
    | cons a hs =>
      obtain ⟨d', s'⟩ := a
      obtain ⟨t', ht'⟩ := hf d' s'
      rw [QText.hitsGo, ht', Res.ok_bind]
      rfl

/-! ### Examples -/

/-- Numbers of halves: 0 is infinite. -/
def c86_nums : Nums Nat where
  one n := n == 2
  half n := n == 1
  finite n := n != 0 && n < 20
  g n := ⟨[Char.ofNat (48 + n / 2)], if n % 2 = 0 then "000000".toList else "500000".toList, []⟩
  e n := ⟨[Char.ofNat (48 + n / 2)], if n % 2 = 0 then "000000".toList else "500000".toList, "e+00".toList⟩

theorem c86_nums_ok : c86_nums.Ok := by
  have key : ∀ n, n < 20 → ∀ d, d = c86_nums.g n ∨ d = c86_nums.e n →
      d.frac.all (·.isDigit) = true ∧ d.whole.all (· ≠ 'e') = true ∧ (d.exp = [] ∨ d.exp.head? = some 'e') ∧ d.text.length ≤ 14 ∧ d.frac ≠ [] := by
    have : ∀ n : Fin 20, ∀ d ∈ [c86_nums.g n.val, c86_nums.e n.val],
        d.frac.all (·.isDigit) = true ∧ d.whole.all (· ≠ 'e') = true ∧ (d.exp = [] ∨ d.exp.head? = some 'e') ∧ d.text.length ≤ 14 ∧ d.frac ≠ [] := by
      decide +kernel
    intro n hn d hd
    exact this ⟨n, hn⟩ d (by rcases hd with rfl | rfl <;> simp)
  have hlt : ∀ n, c86_nums.finite n = true → n < 20 := by
    intro n h
    simp only [c86_nums, Bool.and_eq_true, decide_eq_true_eq] at h
    exact h.2
  constructor
  · intro n h d hd
    obtain ⟨a, b, c, e, _⟩ := key n (hlt n h) d hd
    refine ⟨by simpa using a, by simpa using b, ?_, e⟩
    rcases c with c | c
    · exact Or.inl c
    · right
      cases hx : d.exp with
      | nil => rw [hx] at c; cases c
      | cons y ys => rw [hx] at c; injection c with c; exact ⟨ys, by rw [c]⟩
  · intro n h
    exact (key n (hlt n h) _ (Or.inr rfl)).2.2.2.2

/-- Insertion sort of places. -/
def insertPlace (x : Int × List (List Char)) : List (Int × List (List Char)) → List (Int × List (List Char))
  | [] => [x]
  | y :: ys => if x.1 ≤ y.1 then x :: y :: ys else y :: insertPlace x ys
/-- Insertion sort of places. -/
def sortPlaces : List (Int × List (List Char)) → List (Int × List (List Char))
  | [] => []
  | x :: xs => insertPlace x (sortPlaces xs)

theorem insertPlace_perm (x : Int × List (List Char)) : ∀ l, List.Perm (insertPlace x l) (x :: l)
  | [] => List.Perm.refl _
  | y :: ys => by
    rw [insertPlace]
    split
    · exact List.Perm.refl _
    · exact ((insertPlace_perm x ys).cons y).trans (List.Perm.swap x y ys)

theorem insertPlace_sorted (x : Int × List (List Char)) : ∀ l : List (Int × List (List Char)), l.Pairwise (fun a b => a.1 ≤ b.1) → (insertPlace x l).Pairwise (fun a b => a.1 ≤ b.1)
  | [], _ => List.pairwise_singleton _ _
  | y :: ys, h => by
    rw [List.pairwise_cons] at h
    rw [insertPlace]
    split
    · rename_i hx
      refine List.pairwise_cons.2 ⟨?_, List.pairwise_cons.2 h⟩
      intro z hz
      rcases List.mem_cons.1 hz with rfl | hz
      · exact hx
      · exact Int.le_trans hx (h.1 z hz)
    · rename_i hx
      refine List.pairwise_cons.2 ⟨?_, insertPlace_sorted x ys h.2⟩
      intro z hz
      rcases List.mem_cons.1 ((insertPlace_perm x ys).mem_iff.1 hz) with rfl | hz
      · omega
      · exact h.1 z hz

theorem sortPlaces_sorts : SortsPlaces sortPlaces := by
  intro l
  induction l with
  | nil => exact ⟨List.Perm.refl _, List.Pairwise.nil⟩
  | cons x xs ih => exact ⟨(insertPlace_perm x _).trans (ih.1.cons x), insertPlace_sorted x _ ih.2⟩

/-- `f:a^2.0 +("b <> c"~2 -g:x*)`: phrases, gaps, boosts, fields, signs and parentheses. -/
def c86_query : TQ Nat :=
  .bool (.cons .should (.term ['f'] ['a'] 4)
    (.cons .must (.bool (.cons .should (.phrase ['t'] [(3, [['c'], ['d']]), (1, [['b']])] 2 2) (.cons .mustNot (.pre ['g'] ['x'] 2) .nil)) 3) .nil)) 2

example : Showable c86_nums c86_query ∧
    textOf c86_nums sortPlaces (some ['t']) c86_query = "f:a^2.0 +((\"b <> c|d\"~2 -g:x*)^1.5)".toList := by
  refine ⟨?_, by decide +kernel⟩
  simp [Showable, ShowableAll, c86_query, c86_nums]

example : QText.toS c86_nums sortPlaces (some ['t']) c86_query = .ok "f:a^2.0 +((\"b <> c|d\"~2 -g:x*)^1.5)".toList := by decide +kernel

/-- Thirty-nine clauses fit, forty do not. -/
def c86_near : Nat → TList Nat
  | 0 => .nil
  | n + 1 => .cons (.spanTerm ['t'] ['a']) (c86_near n)

example : ShowableList c86_nums (c86_near 40) ∧ (c86_near 40).length = 40 := by
  constructor
  · simp [c86_near, ShowableList, Showable]
  · decide +kernel

example : QText.toS c86_nums sortPlaces none (.spanNear (c86_near 39)) = .ok (textOf c86_nums sortPlaces none (.spanNear (c86_near 39))) ∧ QText.toS c86_nums sortPlaces none (.spanNear (c86_near 40)) = .ub := by
  decide +kernel

/-- An infinite boost. -/
example : QText.toS c86_nums sortPlaces none (.term ['t'] ['a'] 0) = .ub := c86_infinite _ _ _ _ _ _ rfl rfl

/-- A format with all there is. -/
example : formatted c86_nums "%s: %d%% %f".toList [.str (some ['a']), .int (-7), .dbl 3] = some "a: -7% 1.5".toList := by decide +kernel

/-- One hit. -/
example : QText.hitsToS c86_nums 1 [(4, 3)] = .ub := by rw [c86_hits c86_nums_ok]; rfl

#print axioms c86_text_partial
#print axioms c86_format
#print axioms c86_format_end
#print axioms c86_near_over
#print axioms c86_infinite
#print axioms c86_hits
end Ferret.Props
