import Verif.Model.QClean
import Verif.Spec.QText

/-!
Lemmas about cleaning the text of a query.
-/

namespace Ferret.QP
open Ferret.Spec

/-- One turn of the loop without the checks of bounds. -/
def pureStep (st : Cl) (b : Char) : Cl :=
  if st.pb = some '\\' then
    { st with
      out := b :: (if st.quote && phraseChars.contains b then '\\' :: st.out else st.out)
      pb := some (if b = '\\' then 'r' else b) }
  else if b = '\\' then
    { st with out := if !st.quote then b :: st.out else st.out, pb := some b }
  else if b = '"' then { st with out := b :: st.out, pb := some b, quote := !st.quote }
  else if b = '(' then
    { st with
      out := b :: (if !st.quote then st.out else '\\' :: st.out)
      pb := some b, br := if !st.quote then st.br + 1 else st.br }
  else if b = ')' then
    { st with
      out := b :: (if !st.quote then (if st.br = 0 then st.out ++ ['('] else st.out) else '\\' :: st.out)
      pb := some b, br := if !st.quote then st.br - 1 else st.br }
  else if b = '>' then
    { st with
      out := b :: (if st.quote then (if st.pb = some '<' then '<' :: st.out.drop 2 else '\\' :: st.out)
        else st.out)
      pb := some b }
  else
    { st with
      out := b :: (if st.quote && (specialChars.contains b && b != '|') then '\\' :: st.out else st.out)
      pb := some b }

/-- What has been written and what will have to be written anyway. -/
def Cl.weight (st : Cl) : Nat := st.out.length + st.br + st.quote.toNat

/-- Behind a `<` inside quotes two characters have been written. -/
def Cl.Two (st : Cl) : Prop := st.quote = true → st.pb = some '<' → 2 ≤ st.out.length

theorem put_ok {cap : Nat} {out : List Char} {c : Char} (h : out.length < cap) :
    put cap out c = .ok (c :: out) := if_pos h

theorem insertFront_ok {cap : Nat} {out : List Char} {c : Char} (h : out.length < cap) :
    insertFront cap out c = .ok (out ++ [c]) := if_pos h

theorem unescape_ok {out : List Char} (h : 2 ≤ out.length) : unescape out = .ok ('<' :: out.drop 2) := by
  match out, h with
  | _ :: _ :: r, _ => rfl

theorem step_ok {cap : Nat} {st : Cl} {b : Char} (h : st.weight + 2 < cap) (h2 : st.Two) :
    cleanStep cap st b = .ok (pureStep st b) := by
  obtain ⟨out, pb, br, q⟩ := st
  simp only [Cl.weight, Cl.Two] at h h2
  have h0 : out.length < cap := by omega
  have h1 : out.length + 1 < cap := by omega
  have hi : (out ++ ['(']).length < cap := by simp; omega
  have hc : ∀ c : Char, (c :: out).length < cap := fun c => by simpa using h1
  unfold cleanStep pureStep
  simp only []
  split
  · rcases Bool.eq_false_or_eq_true (q && phraseChars.contains b) with hb | hb <;>
      simp only [hb, put_ok h0, put_ok (hc _), if_true, if_false, Res.ok_bind, Bool.false_eq_true] <;> rfl
  split
  · cases q <;> simp [put_ok h0]
  split
  · simp [put_ok h0]
  split
  · cases q <;> simp [put_ok h0, put_ok (hc _)]
  split
  · cases q
    · by_cases hbr : br = 0 <;> simp [hbr, insertFront_ok h0, put_ok hi, put_ok h0]
    · simp [put_ok h0, put_ok (hc _)]
  split
  · cases q
    · simp [put_ok h0]
    · by_cases hp : pb = some '<'
      · have h2' := h2 rfl hp
        have hd : ('<' :: out.drop 2).length < cap := by simp; omega
        simp [hp, unescape_ok h2', put_ok hd]
      · simp [hp, put_ok h0, put_ok (hc _)]
  · rcases Bool.eq_false_or_eq_true (q && (specialChars.contains b && b != '|')) with hb | hb <;>
      simp only [hb, put_ok h0, put_ok (hc _), if_true, if_false, Res.ok_bind, Bool.false_eq_true] <;> rfl

theorem pure_two {st : Cl} (b : Char) : (pureStep st b).Two := by
  obtain ⟨out, pb, br, q⟩ := st
  unfold Cl.Two pureStep
  intro hq hp
  simp only [] at hq hp ⊢
  split
  · rename_i h
    simp only [if_pos h, Option.some.injEq] at hp hq
    by_cases hb : b = '\\'
    · rw [if_pos hb] at hp; exact absurd hp (by decide)
    · rw [if_neg hb] at hp
      subst hp
      simp only [hq, Bool.true_and]
      rw [if_pos (by decide)]; simp
  rename_i h
  rw [if_neg h] at hp hq
  have hb : b = '<' := by
    repeat' split at hp
    all_goals simpa using hp
  subst hb
  simp only [if_neg (show ¬ '<' = '\\' by decide), if_neg (show ¬ '<' = '"' by decide),
    if_neg (show ¬ '<' = '(' by decide), if_neg (show ¬ '<' = ')' by decide),
    if_neg (show ¬ '<' = '>' by decide)] at hq ⊢
  simp only [hq]
  rw [if_pos (by decide)]; simp

theorem pure_weight {st : Cl} (b : Char) (h2 : st.Two) : (pureStep st b).weight ≤ st.weight + 2 := by
  obtain ⟨out, pb, br, q⟩ := st
  simp only [Cl.weight, Cl.Two] at h2 ⊢
  unfold pureStep
  simp only []
  split
  · split <;> simp <;> omega
  split
  · cases q <;> simp <;> omega
  split
  · cases q <;> simp <;> omega
  split
  · cases q <;> simp <;> omega
  split
  · cases q
    · by_cases hbr : br = 0 <;> simp [hbr]; omega
    · simp; omega
  split
  · cases q
    · simp; omega
    · by_cases hp : pb = some '<'
      · have := h2 rfl hp
        simp [hp]; omega
      · simp [hp]; omega
  · split <;> simp <;> omega

/-- The whole loop without the checks of bounds. -/
def pureLoop (st : Cl) (s : List Char) : Cl := s.foldl pureStep st

theorem loop_ok {cap : Nat} {s : List Char} : ∀ {st : Cl}, st.weight + 2 * s.length < cap → st.Two →
    cleanLoop cap st s = .ok (pureLoop st s) ∧ (pureLoop st s).weight < cap := by
  induction s with
  | nil => intro st h _; exact ⟨rfl, by simpa [pureLoop] using h⟩
  | cons b s ih =>
    intro st h h2
    simp only [List.length_cons] at h
    have hw := pure_weight b h2
    obtain ⟨h3, h4⟩ := ih (st := pureStep st b) (by omega) (pure_two b)
    exact ⟨by simp [cleanLoop, step_ok (show st.weight + 2 < cap by omega) h2, h3, pureLoop],
      by simpa [pureLoop] using h4⟩

theorem closeAll_ok {cap : Nat} : ∀ {n : Nat} {out : List Char}, out.length + n < cap →
    closeAll cap n out = .ok (List.replicate n ')' ++ out) := by
  intro n
  induction n with
  | zero => intro out _; rfl
  | succ n ih =>
    intro out h
    simp only [closeAll, put_ok (show out.length < cap by omega), Res.ok_bind]
    rw [ih (by simp; omega), List.replicate_succ', List.append_assoc]; rfl

/-- What is written after the loop. -/
def finish (st : Cl) : List Char :=
  st.out.reverse ++ (if st.quote then ['"'] else []) ++ List.replicate st.br ')'

theorem cleanStr_ok (s : List Char) : cleanStr s = .ok (finish (pureLoop ⟨[], none, 0, false⟩ s)) := by
  have hl := loop_ok (cap := s.length * 2 + 1) (s := s) (st := ⟨[], none, 0, false⟩)
    (by simp [Cl.weight]; omega) (fun h => by cases h)
  obtain ⟨h1, h2⟩ := hl
  unfold cleanStr
  simp only [h1, Res.ok_bind]
  generalize pureLoop ⟨[], none, 0, false⟩ s = st at h2 ⊢
  obtain ⟨out, pb, br, q⟩ := st
  simp only [Cl.weight] at h2
  simp only [finish]
  cases q
  · simp only [Bool.toNat_false, Nat.add_zero] at h2
    simp only [Bool.false_eq_true, if_false, Res.ok_bind, closeAll_ok h2]
    rw [if_pos (by simp; omega)]; simp
  · simp only [Bool.toNat_true] at h2
    simp only [if_true, put_ok (show out.length < s.length * 2 + 1 by omega), Res.ok_bind]
    rw [closeAll_ok (by simp; omega)]
    simp only [Res.ok_bind]
    rw [if_pos (by simp; omega)]; simp

theorem finish_length (s : List Char) :
    (finish (pureLoop ⟨[], none, 0, false⟩ s)).length ≤ 2 * s.length := by
  have hl := (loop_ok (cap := s.length * 2 + 1) (s := s) (st := ⟨[], none, 0, false⟩)
    (by simp [Cl.weight]; omega) (fun h => by cases h)).2
  generalize pureLoop ⟨[], none, 0, false⟩ s = st at hl ⊢
  simp only [Cl.weight] at hl
  simp only [finish]
  cases hq : st.quote <;> simp [hq] at hl ⊢ <;> omega

/-! ### The words stay -/

theorem qWords_append (a b : List Char) : qWords (a ++ b) = qWords a ++ qWords b := by simp [qWords]

/-- Behind a `<` inside quotes stand an escape and that character. -/
def Cl.Lt (st : Cl) : Prop := st.quote = true → st.pb = some '<' → ∃ o, st.out = '<' :: '\\' :: o

theorem pure_lt {st : Cl} (b : Char) : (pureStep st b).Lt := by
  obtain ⟨out, pb, br, q⟩ := st
  unfold Cl.Lt pureStep
  intro hq hp
  simp only [] at hq hp ⊢
  split
  · rename_i h
    simp only [if_pos h, Option.some.injEq] at hp hq
    by_cases hb : b = '\\'
    · rw [if_pos hb] at hp; exact absurd hp (by decide)
    · rw [if_neg hb] at hp
      subst hp
      simp only [hq, Bool.true_and]
      rw [if_pos (by decide)]; exact ⟨out, rfl⟩
  rename_i h
  rw [if_neg h] at hp hq
  have hb : b = '<' := by
    repeat' split at hp
    all_goals simpa using hp
  subst hb
  simp only [if_neg (show ¬ '<' = '\\' by decide), if_neg (show ¬ '<' = '"' by decide),
    if_neg (show ¬ '<' = '(' by decide), if_neg (show ¬ '<' = ')' by decide),
    if_neg (show ¬ '<' = '>' by decide)] at hq ⊢
  simp only [hq]
  rw [if_pos (by decide)]; exact ⟨out, rfl⟩

theorem step_words {st : Cl} (b : Char) (hl : st.Lt) :
    qWords (pureStep st b).out.reverse = qWords st.out.reverse ++ qWords [b] := by
  obtain ⟨out, pb, br, q⟩ := st
  have e1 : ∀ l, qWords ('\\' :: l) = qWords l := fun _ => rfl
  have e0 : qWords [] = [] := rfl
  have e2 : qWords ['('] = [] := by decide
  simp only [Cl.Lt] at hl
  unfold pureStep
  simp only []
  split
  · split <;> simp [qWords_append, e1, e0]
  split
  · rename_i hb; subst hb
    cases q <;> simp [qWords_append, e1, e0]
  split
  · simp [qWords_append]
  split
  · cases q <;> simp [qWords_append, e1, e0]
  split
  · cases q
    · by_cases hbr : br = 0
      · simp only [hbr, Bool.not_false, if_true, List.reverse_cons, List.reverse_append, List.reverse_nil,
          List.nil_append, qWords_append, e2]
      · simp [hbr, qWords_append]
    · simp [qWords_append, e1, e0]
  split
  · cases q
    · simp [qWords_append]
    · by_cases hp : pb = some '<'
      · obtain ⟨o, ho⟩ := hl rfl hp
        simp [hp, ho, qWords_append, e1, e0]
        exact qWords_append ['<'] [b]
      · simp [hp, qWords_append, e1, e0]
  · split <;> simp [qWords_append, e1, e0]

theorem loop_words {s : List Char} : ∀ {st : Cl}, st.Lt →
    qWords (pureLoop st s).out.reverse = qWords st.out.reverse ++ qWords s := by
  induction s with
  | nil => intro st _; simp [pureLoop, qWords]
  | cons b s ih =>
    intro st hl
    have := ih (st := pureStep st b) (pure_lt b)
    rw [step_words b hl] at this
    simp only [pureLoop, List.foldl_cons] at this ⊢
    rw [this, List.append_assoc, ← qWords_append]; rfl

theorem qWords_replicate (n : Nat) : qWords (List.replicate n ')') = [] := by
  simp [qWords]

theorem finish_words (s : List Char) : qWords (finish (pureLoop ⟨[], none, 0, false⟩ s)) = qWords s := by
  have h := loop_words (s := s) (st := ⟨[], none, 0, false⟩) (fun h => by cases h)
  simp only [finish, qWords_append, h, qWords_replicate]
  have e : qWords ['"'] = [] := by decide
  cases (pureLoop ⟨[], none, 0, false⟩ s).quote <;> simp [e, qWords]

/-! ### Nothing but backslashes is lost -/

/-- A text without its backslashes. -/
abbrev unslash (s : List Char) : List Char := s.filter (fun c => c != '\\')

theorem step_keeps {st : Cl} {b : Char} (hl : st.Lt) {w : List Char}
    (h : List.Sublist w (unslash st.out.reverse)) :
    List.Sublist (w ++ unslash [b]) (unslash (pureStep st b).out.reverse) := by
  obtain ⟨out, pb, br, q⟩ := st
  have e1 : unslash ['\\'] = [] := by decide
  have key : ∀ o : List Char, List.Sublist (unslash out.reverse) (unslash o.reverse) →
      List.Sublist (w ++ unslash [b]) (unslash (b :: o).reverse) := by
    intro o ho
    simp only [unslash, List.reverse_cons, List.filter_append] at ho ⊢
    exact List.Sublist.append (h.trans ho) (List.Sublist.refl _)
  have ks : List.Sublist (unslash out.reverse) (unslash ('\\' :: out).reverse) := by
    simp [unslash]
  simp only [Cl.Lt] at hl
  unfold pureStep
  simp only []
  split
  · split
    · exact key _ ks
    · exact key _ (List.Sublist.refl _)
  split
  · rename_i hb; subst hb
    cases q
    · exact key _ (List.Sublist.refl _)
    · simpa [e1, unslash] using h
  split
  · exact key _ (List.Sublist.refl _)
  split
  · cases q
    · exact key _ (List.Sublist.refl _)
    · exact key _ ks
  split
  · cases q
    · by_cases hbr : br = 0
      · simp only [hbr, Bool.not_false, if_true]
        refine key _ ?_
        simp only [unslash, List.reverse_append, List.filter_append]
        exact List.sublist_append_right _ _
      · simp only [hbr, Bool.not_false, if_true, if_false]
        exact key _ (List.Sublist.refl _)
    · exact key _ ks
  split
  · cases q
    · exact key _ (List.Sublist.refl _)
    · by_cases hp : pb = some '<'
      · obtain ⟨o, ho⟩ := hl rfl hp
        simp only [hp, if_true]
        refine key _ ?_
        simp [ho, unslash]
      · simp only [hp, if_true, if_false]
        exact key _ ks
  · split
    · exact key _ ks
    · exact key _ (List.Sublist.refl _)

theorem loop_keeps {s : List Char} : ∀ {st : Cl} {w : List Char}, st.Lt →
    List.Sublist w (unslash st.out.reverse) →
    List.Sublist (w ++ unslash s) (unslash (pureLoop st s).out.reverse) := by
  induction s with
  | nil => intro st w _ h; simpa [pureLoop, unslash] using h
  | cons b s ih =>
    intro st w hl h
    have := ih (st := pureStep st b) (w := w ++ unslash [b]) (pure_lt b) (step_keeps hl h)
    rw [List.append_assoc, show unslash [b] ++ unslash s = unslash (b :: s) by
      simp only [unslash, ← List.filter_append]; rfl] at this
    exact this

theorem finish_keeps (s : List Char) :
    List.Sublist (unslash s) (finish (pureLoop ⟨[], none, 0, false⟩ s)) := by
  have h := loop_keeps (s := s) (st := ⟨[], none, 0, false⟩) (w := []) (fun h => by cases h)
    (List.nil_sublist _)
  rw [List.nil_append] at h
  unfold finish
  rw [List.append_assoc]
  exact (h.trans (List.filter_sublist)).trans (List.sublist_append_left _ _)

/-! ### Quotes and parentheses -/

theorem qMode_snoc (s : List Char) (c : Char) : qMode (s ++ [c]) = (qMode s).next c := by
  simp [qMode]

theorem read_append : ∀ {a : List Char} {m : QMode} {d : Nat} {b : List Char} {m' : QMode} {d' : Nat},
    qRead m d a = some (m', d') → qRead m d (a ++ b) = qRead m' d' b := by
  intro a
  induction a with
  | nil => intro m d b m' d' h; simp only [qRead, Option.some.injEq, Prod.mk.injEq] at h; simp [h.1, h.2]
  | cons c a ih =>
    intro m d b m' d' h
    simp only [qRead, List.cons_append] at h ⊢
    cases hd : qDepth m d c with
    | none => rw [hd] at h; exact absurd h (by simp)
    | some e => rw [hd] at h; simp only [] at h ⊢; exact ih h

theorem read_mode : ∀ {a : List Char} {m : QMode} {d : Nat} {m' : QMode} {d' : Nat},
    qRead m d a = some (m', d') → a.foldl QMode.next m = m' := by
  intro a
  induction a with
  | nil => intro m d m' d' h; simp only [qRead, Option.some.injEq, Prod.mk.injEq] at h; simpa using h.1
  | cons c a ih =>
    intro m d m' d' h
    simp only [qRead] at h
    cases hd : qDepth m d c with
    | none => rw [hd] at h; exact absurd h (by simp)
    | some e => rw [hd] at h; simp only [] at h; exact ih h

/-- One more parenthesis opened before the text. -/
theorem read_deeper : ∀ {a : List Char} {m : QMode} {d : Nat} {m' : QMode} {d' : Nat},
    qRead m d a = some (m', d') → qRead m (d + 1) a = some (m', d' + 1) := by
  intro a
  induction a with
  | nil => intro m d m' d' h; simp only [qRead, Option.some.injEq, Prod.mk.injEq] at h ⊢; simp [h.1, h.2]
  | cons c a ih =>
    intro m d m' d' h
    simp only [qRead] at h ⊢
    unfold qDepth at h ⊢
    by_cases hm : m = (false, false)
    · simp only [hm, if_true] at h ⊢
      by_cases h1 : c = '('
      · simp only [h1, if_true] at h ⊢; exact ih h
      · by_cases h2 : c = ')'
        · by_cases h3 : d = 0
          · simp [h2, h3] at h
          · simp only [h1, h2, h3, if_true, if_false] at h ⊢
            simp only [show ¬ ')' = '(' by decide, if_false, Nat.add_one_ne_zero, Nat.add_sub_cancel] at h ⊢
            have := ih h
            rwa [Nat.sub_add_cancel (by omega)] at this
        · simp only [h1, h2, if_false] at h ⊢; exact ih h
    · simp only [hm, if_false] at h ⊢; exact ih h

theorem read_front {a : List Char} {m : QMode} {d : Nat}
    (h : qRead (false, false) 0 a = some (m, d)) : qRead (false, false) 0 ('(' :: a) = some (m, d + 1) := by
  have := read_deeper h
  simpa [qRead, qDepth, QMode.next] using this

/-- The reader of what has been written is where the reader of the text is, but for backslashes inside
quotes, which are not written at once. -/
structure Bal (pre : List Char) (st : Cl) : Prop where
  quote : st.quote = (qMode pre).2
  esc : (st.pb = some '\\') ↔ (qMode pre).1 = true
  read : qRead (false, false) 0 st.out.reverse = some (((qMode pre).1 && !st.quote, st.quote), st.br)
  lt : st.quote = true → st.pb = some '<' →
    ∃ o, st.out = '<' :: '\\' :: o ∧ qRead (false, false) 0 o.reverse = some ((false, true), st.br)

theorem step_bal {pre : List Char} {st : Cl} {b : Char} (h : Bal pre st)
    (hs : ¬ (qMode pre = (true, true) ∧ b = '\\')) : Bal (pre ++ [b]) (pureStep st b) := by
  obtain ⟨out, pb, br, q⟩ := st
  obtain ⟨h1, h2, h3, h4⟩ := h
  simp only [] at h1 h2 h3 h4
  have hm : qMode (pre ++ [b]) = (qMode pre).next b := qMode_snoc pre b
  rcases hq : qMode pre with ⟨e, q'⟩
  rw [hq] at h1 h2 h3 hs hm
  simp only [] at h1 h2 h3
  subst h1
  unfold pureStep
  simp only []
  split
  · rename_i hp
    have he : e = true := h2.1 hp
    subst he
    simp only [QMode.next, if_true] at hm
    cases q
    · simp only [Bool.not_false, Bool.and_true] at h3
      refine ⟨by simp [hm], ?_, ?_, fun h => by cases h⟩
      · simp only [hm, Option.some.injEq]
        by_cases hb : b = '\\' <;> simp [hb]
      · simp only [Bool.false_and, Bool.false_eq_true, if_false, List.reverse_cons, hm]
        rw [read_append h3]; simp [qRead, qDepth, QMode.next]
    · have hb : b ≠ '\\' := fun hb => hs ⟨rfl, hb⟩
      simp only [Bool.not_true, Bool.and_false] at h3
      have hcl : qRead (false, false) 0
          (b :: (if (true && phraseChars.contains b) = true then '\\' :: out else out)).reverse
          = some ((false, true), br) := by
        by_cases hph : phraseChars.contains b = true
        · simp only [hph, Bool.and_self, if_true, List.reverse_cons, List.append_assoc]
          rw [read_append h3]; simp [qRead, qDepth, QMode.next]
        · simp only [hph, Bool.and_false, Bool.false_eq_true, if_false, List.reverse_cons]
          rw [read_append h3]
          have hbq : b ≠ '"' := by rintro rfl; exact hph (by decide)
          simp [qRead, qDepth, QMode.next, hb, hbq]
      refine ⟨by simp [hm], by simp [hm, hb], by simpa [hm] using hcl, ?_⟩
      intro _ hlt
      simp only [hb, if_false, Option.some.injEq] at hlt
      subst hlt
      simp only [Bool.true_and]
      rw [if_pos (by decide)]
      exact ⟨out, rfl, h3⟩
  rename_i hp
  have he : e = false := by
    cases e
    · rfl
    · exact absurd (h2.2 rfl) hp
  subst he
  simp only [QMode.next, Bool.false_eq_true, if_false] at hm
  simp only [Bool.false_and] at h3
  split
  · rename_i hb
    simp only [hb, if_true] at hm
    subst hb
    refine ⟨by simp [hm], by simp [hm], ?_, fun _ h => by simp at h⟩
    cases q
    · simp only [Bool.not_false, if_true, List.reverse_cons, hm]
      rw [read_append h3]; simp [qRead, qDepth, QMode.next]
    · simpa [hm] using h3
  rename_i hb
  simp only [hb, if_false] at hm
  split
  · rename_i hb2
    simp only [hb2, if_true] at hm
    subst hb2
    refine ⟨by simp [hm], by simp [hm], ?_, fun _ h => by simp at h⟩
    simp only [List.reverse_cons, hm]
    rw [read_append h3]
    cases q <;> simp [qRead, qDepth, QMode.next]
  rename_i hb2
  simp only [hb2, if_false] at hm
  have hesc : (some b = some '\\') ↔ (qMode (pre ++ [b])).1 = true := by simp [hm, hb]
  split
  · rename_i hb3
    subst hb3
    refine ⟨by simp [hm], hesc, ?_, fun _ h => by simp at h⟩
    cases q
    · simp only [Bool.not_false, if_true, List.reverse_cons, hm]
      rw [read_append h3]; simp [qRead, qDepth, QMode.next]
    · simp only [Bool.not_true, Bool.false_eq_true, if_false, List.reverse_cons, hm, List.append_assoc]
      rw [read_append h3]; simp [qRead, qDepth, QMode.next]
  rename_i hb3
  split
  · rename_i hb4
    subst hb4
    refine ⟨by simp [hm], hesc, ?_, fun _ h => by simp at h⟩
    cases q
    · by_cases hbr : br = 0
      · subst hbr
        simp only [Bool.not_false, if_true, List.reverse_cons, hm, List.reverse_append, List.reverse_nil,
          List.nil_append]
        rw [List.singleton_append, read_append (read_front h3)]; simp [qRead, qDepth, QMode.next]
      · simp only [Bool.not_false, if_true, hbr, if_false, List.reverse_cons, hm]
        rw [read_append h3]; simp [qRead, qDepth, QMode.next, hbr]
    · simp only [Bool.not_true, Bool.false_eq_true, if_false, List.reverse_cons, hm, List.append_assoc]
      rw [read_append h3]; simp [qRead, qDepth, QMode.next]
  rename_i hb4
  split
  · rename_i hb5
    subst hb5
    refine ⟨by simp [hm], hesc, ?_, fun _ h => by simp at h⟩
    cases q
    · simp only [Bool.false_eq_true, if_false, List.reverse_cons, hm]
      rw [read_append h3]; simp [qRead, qDepth, QMode.next]
    · by_cases hlt : pb = some '<'
      · obtain ⟨o, ho, hr⟩ := h4 rfl hlt
        subst ho
        simp only [if_true, hlt, List.drop_succ_cons, List.drop_zero, List.reverse_cons, List.append_assoc, hm]
        rw [read_append hr]; simp [qRead, qDepth, QMode.next]
      · simp only [if_true, hlt, if_false, List.reverse_cons, List.append_assoc, hm]
        rw [read_append h3]; simp [qRead, qDepth, QMode.next]
  · rename_i hb5
    cases q
    · refine ⟨by simp [hm], hesc, ?_, fun h => by cases h⟩
      simp only [Bool.false_and, Bool.false_eq_true, if_false, List.reverse_cons, hm]
      rw [read_append h3]; simp [qRead, qDepth, QMode.next, hb, hb2, hb3, hb4]
    · refine ⟨by simp [hm], hesc, ?_, ?_⟩
      · simp only [hm, Bool.true_and, Bool.not_true, Bool.and_false]
        by_cases hsp : (specialChars.contains b && b != '|') = true
        · simp only [hsp, if_true, List.reverse_cons, List.append_assoc]
          rw [read_append h3]; simp [qRead, qDepth, QMode.next]
        · simp only [hsp, Bool.false_eq_true, if_false, List.reverse_cons]
          rw [read_append h3]; simp [qRead, qDepth, QMode.next, hb, hb2]
      · intro _ hlt
        simp only [Option.some.injEq] at hlt
        subst hlt
        simp only [Bool.true_and]
        rw [if_pos (by decide)]
        exact ⟨out, rfl, h3⟩

theorem bal_start : Bal [] ⟨[], none, 0, false⟩ := ⟨rfl, by simp [qMode], rfl, fun h => by cases h⟩

theorem loop_bal {s : List Char} : ∀ {pre : List Char} {st : Cl}, Bal pre st →
    (∀ a b c, s = a ++ b :: c → ¬ (qMode (pre ++ a) = (true, true) ∧ b = '\\')) →
    Bal (pre ++ s) (pureLoop st s) := by
  induction s with
  | nil => intro pre st h _; simpa [pureLoop] using h
  | cons b s ih =>
    intro pre st h hs
    have h1 := step_bal h (by simpa using hs [] b s rfl)
    have := ih h1 (fun a b' c e => by
      have := hs (b :: a) b' c (by rw [e]; rfl)
      rwa [List.append_assoc, List.singleton_append])
    rwa [List.append_assoc, List.singleton_append] at this

/-- Where the reader is inside quotes behind a backslash, that backslash stands inside quotes. -/
theorem mode_esc {a : List Char} (h : qMode a = (true, true)) :
    ∃ a', a = a' ++ ['\\'] ∧ qMode a' = (false, true) := by
  rcases List.eq_nil_or_concat a with rfl | ⟨a', c, rfl⟩
  · simp [qMode] at h
  · rw [List.concat_eq_append] at h ⊢
    rw [qMode_snoc] at h
    rcases hm : qMode a' with ⟨e, q⟩
    rw [hm] at h
    unfold QMode.next at h
    cases e
    · by_cases h1 : c = '\\'
      · simp only [h1, Bool.false_eq_true, if_false, if_true, Prod.mk.injEq, true_and] at h
        exact ⟨a', by rw [h1], by rw [hm, h]⟩
      · by_cases h2 : c = '"' <;> simp [h1, h2] at h
    · simp at h

theorem noSlashes_loop {s : List Char} (h : QNoSlashes s) :
    ∀ a b c, s = a ++ b :: c → ¬ (qMode ([] ++ a) = (true, true) ∧ b = '\\') := by
  rintro a b c e ⟨h1, rfl⟩
  obtain ⟨a', ha, hm⟩ := mode_esc h1
  refine h a' c ?_ hm
  simp only [List.nil_append] at ha
  rw [e, ha]; simp

theorem read_closes : ∀ (n : Nat), qRead (false, false) n (List.replicate n ')') = some ((false, false), 0) := by
  intro n
  induction n with
  | zero => rfl
  | succ n ih => simpa [List.replicate_succ, qRead, qDepth, QMode.next] using ih

theorem finish_balanced {s : List Char} (hs : QNoSlashes s) (hw : QWhole s) :
    QBalanced (finish (pureLoop ⟨[], none, 0, false⟩ s)) := by
  have h := loop_bal bal_start (noSlashes_loop hs)
  rw [List.nil_append] at h
  generalize pureLoop ⟨[], none, 0, false⟩ s = st at h ⊢
  obtain ⟨out, pb, br, q⟩ := st
  have hr := h.read
  simp only [show (qMode s).1 = false from hw, Bool.false_and] at hr
  refine ⟨false, ?_⟩
  unfold finish
  rw [List.append_assoc, read_append hr]
  cases q
  · simpa using read_closes br
  · simpa [qRead, qDepth, QMode.next] using read_closes br

/-! ### Escapes inside quotes -/

theorem specialChars_eq : specialChars = qSpecial := by decide

theorem snoc_split {o a b : List Char} {c x : Char} (h : o ++ [c] = a ++ x :: b) :
    (a = o ∧ x = c ∧ b = []) ∨ ∃ b', b = b' ++ [c] ∧ o = a ++ x :: b' := by
  rcases List.eq_nil_or_concat b with rfl | ⟨b', y, rfl⟩
  · left
    obtain ⟨h1, h2⟩ := List.append_inj' h rfl
    simp only [List.cons.injEq, and_true] at h2
    exact ⟨h1.symm, h2.symm, rfl⟩
  · right
    rw [List.concat_eq_append, show a ++ x :: (b' ++ [y]) = (a ++ x :: b') ++ [y] by simp] at h
    obtain ⟨h1, h2⟩ := List.append_inj' h rfl
    simp only [List.cons.injEq, and_true] at h2
    exact ⟨b', by rw [List.concat_eq_append, h2], h1⟩

theorem quiet_snoc {o : List Char} {c : Char} (h : QQuiet o)
    (hc : qMode o = (false, true) → c ∈ qSpecial →
      c = '"' ∨ c = '|' ∨ (c = '>' ∧ o.getLast? = some '<')) : QQuiet (o ++ [c]) := by
  intro a x b e hm hx
  rcases snoc_split e with ⟨rfl, rfl, rfl⟩ | ⟨b', rfl, ho⟩
  · rcases hc hm hx with h1 | h1 | h1
    · exact Or.inl h1
    · exact Or.inr (Or.inl h1)
    · exact Or.inr (Or.inr (Or.inr h1))
  · rcases h a x b' ho hm hx with h1 | h1 | ⟨h1, h2⟩ | h1
    · exact Or.inl h1
    · exact Or.inr (Or.inl h1)
    · refine Or.inr (Or.inr (Or.inl ⟨h1, ?_⟩))
      cases b' with
      | nil => simp at h2
      | cons y b' => simpa using h2
    · exact Or.inr (Or.inr (Or.inr h1))

theorem quiet_pair {o : List Char} (h : QQuiet o) : QQuiet (o ++ ['<', '>']) := by
  intro a x b e hm hx
  rw [show o ++ ['<', '>'] = (o ++ ['<']) ++ ['>'] by simp] at e
  rcases snoc_split e with ⟨rfl, rfl, rfl⟩ | ⟨b', rfl, ho⟩
  · exact Or.inr (Or.inr (Or.inr ⟨rfl, by simp⟩))
  · rcases snoc_split ho with ⟨rfl, rfl, rfl⟩ | ⟨b'', rfl, ho'⟩
    · exact Or.inr (Or.inr (Or.inl ⟨rfl, rfl⟩))
    · rcases h a x b'' ho' hm hx with h1 | h1 | ⟨h1, h2⟩ | h1
      · exact Or.inl h1
      · exact Or.inr (Or.inl h1)
      · refine Or.inr (Or.inr (Or.inl ⟨h1, ?_⟩))
        cases b'' with
        | nil => simp at h2
        | cons y b'' => simpa using h2
      · exact Or.inr (Or.inr (Or.inr h1))

theorem quiet_front {o : List Char} (h : QQuiet o) : QQuiet ('(' :: o) := by
  intro a x b e hm hx
  cases a with
  | nil => simp [qMode] at hm
  | cons y a =>
    simp only [List.cons_append, List.cons.injEq] at e
    obtain ⟨rfl, e⟩ := e
    have hm' : qMode a = (false, true) := by simpa [qMode, QMode.next] using hm
    rcases h a x b e hm' hx with h1 | h1 | h1 | ⟨h1, h2⟩
    · exact Or.inl h1
    · exact Or.inr (Or.inl h1)
    · exact Or.inr (Or.inr (Or.inl h1))
    · refine Or.inr (Or.inr (Or.inr ⟨h1, ?_⟩))
      cases a with
      | nil => simp at h2
      | cons z a => simpa using h2

/-- Escaping a character keeps the quiet. -/
theorem quiet_esc {o : List Char} {c : Char} (h : QQuiet o) (hm : (qMode o).1 = false) :
    QQuiet (o ++ ['\\', c]) := by
  rw [show o ++ ['\\', c] = (o ++ ['\\']) ++ [c] by simp]
  refine quiet_snoc (quiet_snoc h (fun _ h => absurd h (by decide))) (fun h1 _ => ?_)
  rw [qMode_snoc] at h1
  simp [QMode.next, hm] at h1

theorem bal_mode {pre : List Char} {st : Cl} (h : Bal pre st) :
    qMode st.out.reverse = ((qMode pre).1 && !st.quote, st.quote) := read_mode h.read

theorem step_quiet {pre : List Char} {st : Cl} {b : Char} (hb : Bal pre st)
    (hq : QQuiet st.out.reverse)
    (hlt : st.quote = true → st.pb = some '<' → ∃ o, st.out = '<' :: '\\' :: o ∧ QQuiet o.reverse)
    (hm : qMode pre ≠ (true, true)) (hs : ¬ (qMode pre = (false, true) ∧ b = '\\')) :
    QQuiet (pureStep st b).out.reverse ∧
    ((pureStep st b).quote = true → (pureStep st b).pb = some '<' →
      ∃ o, (pureStep st b).out = '<' :: '\\' :: o ∧ QQuiet o.reverse) := by
  have hmode := bal_mode hb
  obtain ⟨out, pb, br, q⟩ := st
  obtain ⟨h1, h2, -, -⟩ := hb
  simp only [] at h1 h2 hmode hq hlt
  rcases hqm : qMode pre with ⟨e, q'⟩
  rw [hqm] at h1 h2 hmode hm hs
  simp only [] at h1 h2 hmode
  subst h1
  unfold pureStep
  simp only []
  split
  · rename_i hp
    have he : e = true := h2.1 hp
    subst he
    cases q
    · refine ⟨?_, fun h => by cases h⟩
      simp only [Bool.false_and, Bool.false_eq_true, if_false, List.reverse_cons]
      exact quiet_snoc hq (fun h => by simp [hmode] at h)
    · exact absurd rfl hm
  rename_i hp
  have he : e = false := by
    cases e
    · rfl
    · exact absurd (h2.2 rfl) hp
  subst he
  simp only [Bool.false_and] at hmode
  have hesc : ∀ c, QQuiet (c :: '\\' :: out).reverse := by
    intro c
    rw [show (c :: '\\' :: out).reverse = out.reverse ++ ['\\', c] by simp]
    exact quiet_esc hq (by rw [hmode])
  split
  · rename_i hb
    cases q
    · refine ⟨?_, fun h => by cases h⟩
      simp only [Bool.not_false, if_true, List.reverse_cons]
      exact quiet_snoc hq (fun h => by simp [hmode] at h)
    · exact absurd ⟨rfl, hb⟩ hs
  rename_i hb
  split
  · rename_i hb2
    subst hb2
    refine ⟨?_, fun _ h => by simp at h⟩
    simp only [List.reverse_cons]
    exact quiet_snoc hq (fun _ _ => Or.inl rfl)
  rename_i hb2
  split
  · rename_i hb3
    subst hb3
    refine ⟨?_, fun _ h => by simp at h⟩
    cases q
    · simp only [Bool.not_false, if_true, List.reverse_cons]
      exact quiet_snoc hq (fun h => by simp [hmode] at h)
    · exact hesc _
  split
  · rename_i hb4
    subst hb4
    refine ⟨?_, fun _ h => by simp at h⟩
    cases q
    · simp only [Bool.not_false, if_true, List.reverse_cons]
      by_cases hbr : br = 0
      · simp only [hbr, if_true, List.reverse_append, List.reverse_cons, List.reverse_nil, List.nil_append,
          List.singleton_append]
        refine quiet_snoc (quiet_front hq) (fun h => ?_)
        simp only [qMode, List.foldl_cons] at h hmode
        rw [show QMode.next (false, false) '(' = (false, false) from rfl, hmode] at h
        simp at h
      · simp only [hbr, if_false]
        exact quiet_snoc hq (fun h => by simp [hmode] at h)
    · exact hesc _
  split
  · rename_i hb5
    subst hb5
    refine ⟨?_, fun _ h => by simp at h⟩
    cases q
    · simp only [Bool.false_eq_true, if_false, List.reverse_cons]
      exact quiet_snoc hq (fun h => by simp [hmode] at h)
    · by_cases hl : pb = some '<'
      · obtain ⟨o, ho, hqo⟩ := hlt rfl hl
        simp only [hl, if_true, ho, List.drop_succ_cons, List.drop_zero, List.reverse_cons, List.append_assoc]
        exact quiet_pair hqo
      · simp only [hl, if_true, if_false]
        exact hesc _
  · rename_i hb3 hb4 hb5
    by_cases hsp : (q && (specialChars.contains b && b != '|')) = true
    · simp only [hsp, if_true]
      refine ⟨hesc b, fun _ h => ?_⟩
      simp only [Option.some.injEq] at h
      subst h
      exact ⟨out, rfl, hq⟩
    · simp only [hsp, Bool.false_eq_true, if_false, List.reverse_cons]
      refine ⟨quiet_snoc hq (fun h1 h2 => ?_), fun hq' h => ?_⟩
      · rw [hmode] at h1
        simp only [Prod.mk.injEq, true_and] at h1
        rw [← specialChars_eq] at h2
        simp only [h1, Bool.true_and, Bool.and_eq_true, List.contains_iff_mem, h2, true_and, bne_iff_ne, ne_eq,
          Decidable.not_not] at hsp
        exact Or.inr (Or.inl hsp)
      · simp only [Option.some.injEq] at h
        subst h
        subst hq'
        exact absurd (by decide) hsp

theorem loop_quiet {s : List Char} : ∀ {pre : List Char} {st : Cl}, Bal pre st → QQuiet st.out.reverse →
    (st.quote = true → st.pb = some '<' → ∃ o, st.out = '<' :: '\\' :: o ∧ QQuiet o.reverse) →
    (∀ a b, s = a ++ b → qMode (pre ++ a) ≠ (true, true)) →
    (∀ a b, s = a ++ '\\' :: b → qMode (pre ++ a) ≠ (false, true)) →
    Bal (pre ++ s) (pureLoop st s) ∧ QQuiet (pureLoop st s).out.reverse := by
  induction s with
  | nil => intro pre st h h2 _ _ _; exact ⟨by simpa [pureLoop] using h, h2⟩
  | cons b s ih =>
    intro pre st h h2 h3 h4 h5
    have e4 := h4 [] (b :: s) rfl
    have h1 := step_bal (b := b) h (fun hh => e4 (by simpa using hh.1))
    rw [List.append_nil] at e4
    obtain ⟨h6, h7⟩ := step_quiet (b := b) h h2 h3 e4 (fun hh => by
      have := h5 [] s (by rw [hh.2]; rfl)
      rw [List.append_nil] at this
      exact this hh.1)
    have := ih h1 h6 h7 (fun a c e => by
        have := h4 (b :: a) c (by rw [e]; rfl)
        rwa [List.append_assoc, List.singleton_append]) (fun a c e => by
        have := h5 (b :: a) c (by rw [e]; rfl)
        rwa [List.append_assoc, List.singleton_append])
    rwa [List.append_assoc, List.singleton_append] at this

theorem noEscapes_mode {s : List Char} (h : QNoEscapes s) :
    ∀ a b, s = a ++ b → qMode ([] ++ a) ≠ (true, true) := by
  intro a b e hm
  obtain ⟨a', ha, hm'⟩ := mode_esc hm
  rw [List.nil_append] at ha
  exact h a' b (by rw [e, ha]; simp) hm'

theorem quiet_closes {o : List Char} (h : QQuiet o) (hm : (qMode o).2 = false) :
    ∀ n : Nat, QQuiet (o ++ List.replicate n ')') := by
  intro n
  induction n generalizing o with
  | zero => simpa using h
  | succ n ih =>
    rw [List.replicate_succ, show o ++ ')' :: List.replicate n ')' = (o ++ [')']) ++ List.replicate n ')' by simp]
    refine ih (quiet_snoc h (fun h1 => by rw [h1] at hm; cases hm)) ?_
    rw [qMode_snoc]
    unfold QMode.next
    rcases he : (qMode o).1 <;> simp [hm]

theorem finish_quiet {s : List Char} (hs : QNoEscapes s) :
    QQuiet (finish (pureLoop ⟨[], none, 0, false⟩ s)) := by
  obtain ⟨h1, h2⟩ := loop_quiet bal_start (s := s) (by intro a c b e; simp at e) (fun h => by cases h)
    (noEscapes_mode hs) (fun a b e => by simpa using hs a b e)
  rw [List.nil_append] at h1
  have hm := bal_mode h1
  generalize pureLoop ⟨[], none, 0, false⟩ s = st at h1 h2 hm ⊢
  obtain ⟨out, pb, br, q⟩ := st
  simp only [] at h1 h2 hm
  unfold finish
  cases q
  · simp only [Bool.false_eq_true, if_false, List.append_nil]
    exact quiet_closes h2 (by rw [hm]) br
  · simp only [if_true]
    refine quiet_closes (quiet_snoc h2 (fun _ _ => Or.inl rfl)) ?_ br
    rw [qMode_snoc, hm]
    simp [QMode.next]

/-! ### Texts that need no cleaning -/

/-- What has been written is what has been read, but for a `<` inside quotes, which stands escaped until the
`>` comes. -/
structure Same (pre : List Char) (st : Cl) : Prop where
  quote : st.quote = (qMode pre).2
  esc : (st.pb = some '\\') ↔ (qMode pre).1 = true
  last : st.quote = true → st.pb = pre.getLast?
  held : st.quote = true → st.pb = some '<' →
    ∃ o, pre = o ++ ['<'] ∧ st.out.reverse = o ++ ['\\', '<'] ∧ qMode o = (false, true)
  same : ¬ (st.quote = true ∧ st.pb = some '<') → st.out.reverse = pre

theorem step_same {s pre rest : List Char} {st : Cl} {b : Char} (hs : s = pre ++ b :: rest) (h : Same pre st)
    (hq : QQuiet s) (he : QNoEscapes s) (hd : qDepth (qMode pre) st.br b = some d) :
    Same (pre ++ [b]) (pureStep st b) ∧ (pureStep st b).br = d := by
  obtain ⟨out, pb, br, q⟩ := st
  obtain ⟨h1, h2, h3, h4, h5⟩ := h
  have hn := noEscapes_mode he pre (b :: rest) hs
  have hq := hq pre b rest hs
  have hlast := fun o (e : pre = o ++ ['<']) hm => ‹QQuiet s› o '<' (b :: rest) (by rw [hs, e]; simp) hm (by decide)
  have hn2 := fun (e : b = '\\') => he pre rest (by rw [hs, e])
  have hm : qMode (pre ++ [b]) = (qMode pre).next b := qMode_snoc pre b
  rw [List.nil_append] at hn
  simp only [] at h1 h2 h3 h4 h5 hd
  rcases hqm : qMode pre with ⟨e, q'⟩
  rw [hqm] at h1 h2 hq hn hn2 hm hd
  simp only [] at h1 h2
  subst h1
  -- inside quotes, behind a `<` comes a `>`
  have hgt : q = true → pb = some '<' → b = '>' := by
    intro hq1 hp
    obtain ⟨o, ho, -, hmo⟩ := h4 hq1 hp
    rcases hlast o ho hmo with h | h | ⟨-, h⟩ | ⟨h, -⟩
    · exact absurd h (by decide)
    · exact absurd h (by decide)
    · simpa using h
    · exact absurd h (by decide)
  have keep : ¬ (q = true ∧ pb = some '<') → ∀ x : List Char, (x.reverse = out.reverse) →
      (b :: x).reverse = pre ++ [b] := by
    intro hh x hx
    rw [List.reverse_cons, hx, h5 hh]
  unfold pureStep
  simp only []
  cases q
  · have hf : ¬ (false = true ∧ pb = some '<') := fun h => by cases h.1
    have e0 := keep hf out rfl
    simp only [Bool.false_and, Bool.false_eq_true, if_false, Bool.not_false, if_true]
    split
    · rename_i hp
      have : e = true := h2.1 hp
      subst this
      simp only [QMode.next, if_true] at hm
      simp [qDepth] at hd
      refine ⟨⟨by simp [hm], ?_, (fun h => by cases h), (fun h => by cases h), fun _ => e0⟩, hd⟩
      simp only [hm, Option.some.injEq]
      by_cases hb : b = '\\' <;> simp [hb]
    rename_i hp
    have : e = false := by
      cases e
      · rfl
      · exact absurd (h2.2 rfl) hp
    subst this
    simp only [QMode.next, Bool.false_eq_true, if_false] at hm
    simp only [qDepth, if_true] at hd
    split
    · rename_i hb
      subst hb
      simp at hd hm
      exact ⟨⟨by simp [hm], by simp [hm], (fun h => by cases h), (fun h => by cases h), fun _ => e0⟩, hd⟩
    rename_i hb
    simp only [hb, if_false] at hm
    split
    · rename_i hb2
      subst hb2
      simp at hd hm
      exact ⟨⟨by simp [hm], by simp [hm], fun _ => by simp, fun _ h => by simp at h, fun _ => e0⟩, hd⟩
    rename_i hb2
    simp only [hb2, if_false] at hm
    have hfin : ∀ br', Same (pre ++ [b]) ⟨b :: out, some b, br', false⟩ := fun br' =>
      ⟨by simp [hm], by simp [hm, hb], (fun h => by cases h), (fun h => by cases h), fun _ => e0⟩
    split
    · rename_i hb3
      simp only [hb3, if_true, Option.some.injEq] at hd
      exact ⟨hfin _, hd⟩
    rename_i hb3
    split
    · rename_i hb4
      by_cases hbr : br = 0
      · simp [hb3, hb4, hbr] at hd
      · simp only [hb3, hb4, hbr, if_true, if_false, Option.some.injEq] at hd ⊢
        subst hb4
        simp at hd
        exact ⟨hfin _, hd⟩
    rename_i hb4
    simp only [hb3, hb4, if_false, Option.some.injEq] at hd
    split
    · exact ⟨hfin _, hd⟩
    · exact ⟨hfin _, hd⟩
  · have : e = false := by
      cases e
      · rfl
      · exact absurd rfl hn
    subst this
    have hp : ¬ pb = some '\\' := fun h => by cases h2.1 h
    have hb : ¬ b = '\\' := fun h => hn2 h rfl
    simp [qDepth] at hd
    simp only [QMode.next, Bool.false_eq_true, if_false, hb] at hm
    simp only [if_neg hp, if_neg hb, if_true, Bool.true_and, Bool.not_true, Bool.false_eq_true, if_false]
    have hq := hq rfl
    by_cases hl : pb = some '<'
    · have hb' := hgt rfl hl
      subst hb'
      obtain ⟨o, ho, hout, hmo⟩ := h4 rfl hl
      have hout' : out = '<' :: '\\' :: o.reverse := by
        have := congrArg List.reverse hout
        simpa using this
      simp at hm
      simp only [hl, hout', List.drop_succ_cons, List.drop_zero]
      refine ⟨⟨by simp [hm], by simp [hm], fun _ => by simp, fun _ h => by simp at h, fun _ => ?_⟩, hd⟩
      simp [ho]
    · have e0 := keep (fun h => hl h.2) out rfl
      split
      · rename_i hb2
        subst hb2
        simp at hm
        exact ⟨⟨by simp [hm], by simp [hm], (fun h => by cases h), (fun h => by cases h), fun _ => e0⟩, hd⟩
      rename_i hb2
      simp only [hb2, if_false] at hm
      by_cases hsp : b ∈ qSpecial
      · rcases hq hsp with h | h | ⟨h, -⟩ | ⟨-, h⟩
        · exact absurd h hb2
        · subst h
          refine ⟨⟨by simp [hm], by simp [hm], fun _ => by simp, fun _ h => by simp at h, fun _ => ?_⟩, hd⟩
          simpa using e0
        · subst h
          refine ⟨⟨by simp [hm], by simp [hm], fun _ => by simp, fun _ _ => ?_, fun h => ?_⟩, hd⟩
          · refine ⟨pre, rfl, ?_, hqm⟩
            rw [if_neg (by decide), if_neg (by decide), if_neg (by decide), if_pos (by decide)]
            simp [h5 (fun h => hl h.2)]
          · exact absurd ⟨rfl, by simp⟩ h
        · exact absurd ((h3 rfl).trans h) hl
      · have hb3 : ¬ b = '(' := by rintro rfl; exact hsp (by decide)
        have hb4 : ¬ b = ')' := by rintro rfl; exact hsp (by decide)
        have hb5 : ¬ b = '>' := by rintro rfl; exact hsp (by decide)
        have hb6 : ¬ b = '<' := by rintro rfl; exact hsp (by decide)
        rw [specialChars_eq]
        simp only [if_neg hb3, if_neg hb4, if_neg hb5]
        rw [if_neg (by simp [hsp])]
        refine ⟨⟨by simp [hm], by simp [hm, hb], fun _ => by simp, fun _ h => by simp [hb6] at h, fun _ => e0⟩, hd⟩

theorem loop_same {s : List Char} (hq : QQuiet s) (he : QNoEscapes s) : ∀ {rest pre : List Char} {st : Cl}
    {m : QMode} {d : Nat}, s = pre ++ rest → Same pre st → qRead (qMode pre) st.br rest = some (m, d) →
    Same s (pureLoop st rest) ∧ (pureLoop st rest).br = d := by
  intro rest
  induction rest with
  | nil =>
    intro pre st m d hs h hr
    simp only [qRead, Option.some.injEq, Prod.mk.injEq] at hr
    rw [List.append_nil] at hs
    exact ⟨hs ▸ h, hr.2⟩
  | cons b rest ih =>
    intro pre st m d hs h hr
    simp only [qRead] at hr
    cases hd : qDepth (qMode pre) st.br b with
    | none => rw [hd] at hr; cases hr
    | some d' =>
      rw [hd] at hr
      simp only [] at hr
      obtain ⟨h1, h2⟩ := step_same hs h hq he hd
      refine ih (m := m) (pre := pre ++ [b]) (by rw [hs]; simp) h1 ?_
      rw [qMode_snoc, h2]; exact hr

theorem finish_same {s : List Char} (hb : QBalanced s) (hq : QQuiet s) (he : QNoEscapes s) :
    finish (pureLoop ⟨[], none, 0, false⟩ s) = s := by
  obtain ⟨e, hr⟩ := hb
  obtain ⟨h1, h2⟩ := loop_same hq he (rest := s) (pre := []) (st := ⟨[], none, 0, false⟩) rfl
    ⟨rfl, by simp [qMode], (fun h => by cases h), (fun h => by cases h), fun _ => rfl⟩ hr
  have hm : qMode s = (e, false) := read_mode hr
  have h3 : (pureLoop ⟨[], none, 0, false⟩ s).quote = false := by rw [h1.quote, hm]
  have h4 := h1.same (fun h => by rw [h3] at h; cases h.1)
  unfold finish
  rw [h2, h3, h4]; simp

end Ferret.QP
