import Verif.Model.SeaTree
import Verif.Lemmas.Readers

namespace Ferret.SeaTree
open Ferret Ferret.Spec Ferret.Rdr

variable {A B W S T : Type}

theorem maxDocs_length : ∀ ss : List (Sea A B W S T), (maxDocs ss).length = ss.length
  | [] => rfl
  | s :: ss => by rw [maxDocs, List.length_cons, List.length_cons, maxDocs_length ss]

mutual
theorem maxDoc_leaves : ∀ s : Sea A B W S T, maxDoc s = ((leaves s).map (·.size)).sum
  | .leaf l => by simp [maxDoc, leaves]
  | .multi ss => by rw [maxDoc, leaves]; exact maxDocs_leaves ss
theorem maxDocs_leaves : ∀ ss : List (Sea A B W S T), (maxDocs ss).sum = ((leavesOf ss).map (·.size)).sum
  | [] => rfl
  | s :: ss => by
    rw [maxDocs, leavesOf, List.sum_cons, List.map_append, List.sum_append, maxDoc_leaves s, maxDocs_leaves ss]
end

theorem inWhich_append {L : Type} (size : L → Nat) : ∀ (xs ys : List L) (d : Nat),
    inWhich size (xs ++ ys) d = if d < (xs.map size).sum then inWhich size xs d else inWhich size ys (d - (xs.map size).sum) := by
  intro xs
  induction xs with
  | nil => intro ys d; simp
  | cons x xs ih =>
    intro ys d
    rw [List.cons_append, inWhich, List.map_cons, List.sum_cons, inWhich]
    by_cases h : d < size x
    · rw [if_pos h, if_pos h, if_pos (by omega)]
    · rw [if_neg h, if_neg h, ih]
      by_cases h2 : d < size x + (xs.map size).sum
      · rw [if_pos h2, if_pos (by omega)]
      · rw [if_neg h2, if_neg (by omega), Nat.sub_sub]

mutual
theorem ask_spec : ∀ (s : Sea A B W S T) (a : A) (d : Nat), d < maxDoc s →
    ∃ l o, inWhich (·.size) (leaves s) d = some (l, o) ∧ ask s a d = l.call a (o : Int)
  | .leaf l, a, d, h => ⟨l, d, by rw [maxDoc] at h; rw [leaves, inWhich, if_pos h], by rw [ask]⟩
  | .multi ss, a, d, h => by
    rw [maxDoc] at h
    obtain ⟨i, o, g1, g2⟩ := locate_spec (maxDocs ss) d h
    obtain ⟨l, o', k1, k2⟩ := askAt_spec ss a d i o g1
    refine ⟨l, o', by rw [leaves]; exact k1, ?_⟩
    rw [ask, find, starts, g2, Res.ok_bind]
    exact k2
theorem askAt_spec : ∀ (ss : List (Sea A B W S T)) (a : A) (d i o : Nat), whichSegment (maxDocs ss) d = some (i, o) →
    ∃ l o', inWhich (·.size) (leavesOf ss) d = some (l, o') ∧ askAt ss i a (o : Int) = l.call a (o' : Int)
  | [], a, d, i, o, h => by rw [maxDocs, whichSegment] at h; cases h
  | s :: ss, a, d, i, o, h => by
    rw [maxDocs, whichSegment] at h
    rw [leavesOf, inWhich_append, ← maxDoc_leaves]
    by_cases hd : d < maxDoc s
    · rw [if_pos hd] at h
      cases h
      rw [if_pos hd, askAt]
      exact ask_spec s a d hd
    · rw [if_neg hd] at h
      obtain ⟨⟨x, y⟩, h1, h2⟩ := Option.map_eq_some_iff.1 h
      cases h2
      rw [if_neg hd, askAt]
      exact askAt_spec ss a (d - maxDoc s) x y h1
end

/-- Which searcher is asked for a document past the last. -/
theorem find_past (ss : List (Sea A B W S T)) (hne : ss ≠ []) (d : Nat) (h : (maxDocs ss).sum ≤ d) :
    ∃ i o s, find ss d = .ok (i, ((o : Nat) : Int)) ∧ ss[i]? = some s ∧ maxDoc s ≤ o := by
  have hpos : 0 < (maxDocs ss).length := by
    rw [maxDocs_length]
    cases ss with
    | nil => exact absurd rfl hne
    | cons => simp
  obtain ⟨i, g1, g2, g3, g4, g5⟩ := readerIndex_spec (maxDocs ss) d
  have hi : 0 ≤ i := by
    by_cases hn : 0 ≤ i
    · exact hn
    · have := g3 0 (by omega) hpos
      simp only [List.take_zero, List.sum_nil] at this
      omega
  obtain ⟨k, rfl⟩ : ∃ k : Nat, i = k := ⟨i.toNat, by omega⟩
  have hk : k < (maxDocs ss).length := by omega
  have hs : (maxDocs ss)[k]? = some (maxDocs ss)[k] := List.getElem?_eq_getElem hk
  have h1 := g2 k (by omega) hk
  have h3 := sum_take_le (maxDocs ss) (show k + 1 ≤ (maxDocs ss).length by omega)
  rw [take_succ_sum hs, List.take_length] at h3
  have hget : ∀ (ss : List (Sea A B W S T)) (k : Nat) (hk : k < (maxDocs ss).length), ∃ s, ss[k]? = some s ∧ maxDoc s = (maxDocs ss)[k] := by
    intro ss
    induction ss with
    | nil => intro k hk; simp [maxDocs] at hk
    | cons s ss ih =>
      intro k hk
      cases k with
      | zero => exact ⟨s, rfl, by simp [maxDocs]⟩
      | succ k =>
        obtain ⟨s', a1, a2⟩ := ih k (by simpa [maxDocs] using hk)
        exact ⟨s', by simpa using a1, by simpa [maxDocs] using a2⟩
  obtain ⟨s, k1, k2⟩ := hget ss k hk
  refine ⟨k, d - ((maxDocs ss).take k).sum, s, ?_, k1, by omega⟩
  unfold find starts locate
  rw [g1, Res.ok_bind, if_neg (by omega), Int.toNat_natCast, startsFrom_get (maxDocs ss) 0 k (by omega)]
  dsimp only
  rw [if_pos hk]
  congr 2
  omega

theorem find_negative (ss : List (Sea A B W S T)) (d : Int) (h : d < 0) : find ss d = .ub := by
  obtain ⟨i, g1, g2, g3, g4, g5⟩ := readerIndex_spec (maxDocs ss) d
  have hi : i < 0 := by
    apply Classical.byContradiction
    intro hn
    have := g2 0 (by omega) (by omega)
    simp only [List.take_zero, List.sum_nil] at this
    omega
  unfold find starts locate
  rw [g1, Res.ok_bind, if_pos hi]

theorem find_none (d : Int) : find ([] : List (Sea A B W S T)) d = .ub := by
  obtain ⟨i, g1, g2, g3, g4, g5⟩ := readerIndex_spec (maxDocs ([] : List (Sea A B W S T))) d
  have hi : i < 0 := by simp [maxDocs] at g5; omega
  unfold find starts locate
  rw [g1, Res.ok_bind, if_pos hi]

theorem askAt_get : ∀ (ss : List (Sea A B W S T)) (i : Nat) (s : Sea A B W S T) (a : A) (d : Int), ss[i]? = some s → askAt ss i a d = ask s a d
  | [], i, s, a, d, h => by cases h
  | s' :: ss, 0, s, a, d, h => by cases h; rw [askAt]
  | s' :: ss, i + 1, s, a, d, h => by rw [askAt]; exact askAt_get ss i s a d (by simpa using h)

theorem fullAll_mem : ∀ (ss : List (Sea A B W S T)) (s : Sea A B W S T), fullAll ss = true → s ∈ ss → full s = true ∧ ∀ l ∈ leaves s, l ∈ leavesOf ss
  | [], s, _, h => by cases h
  | s' :: ss, s, hf, h => by
    rw [fullAll, Bool.and_eq_true] at hf
    rw [leavesOf]
    rcases List.mem_cons.1 h with rfl | h
    · exact ⟨hf.1, fun l hl => List.mem_append_left _ hl⟩
    · obtain ⟨a1, a2⟩ := fullAll_mem ss s hf.2 h
      exact ⟨a1, fun l hl => List.mem_append_right _ (a2 l hl)⟩

mutual
theorem ask_past : ∀ (s : Sea A B W S T) (a : A) (d : Nat), full s = true → maxDoc s ≤ d →
    ∃ l ∈ leaves s, ∃ o, l.size ≤ o ∧ ask s a d = l.call a ((o : Nat) : Int)
  | .leaf l, a, d, _, h => ⟨l, by rw [leaves]; exact List.mem_singleton.2 rfl, d, by rw [maxDoc] at h; exact h, by rw [ask]⟩
  | .multi ss, a, d, hf, h => by
    rw [full, Bool.and_eq_true] at hf
    rw [maxDoc] at h
    obtain ⟨i, o, s, g1, g2, g3⟩ := find_past ss (by rintro rfl; simp at hf) d h
    obtain ⟨l, k1, o', k2, k3⟩ := askAt_past ss a i o s hf.2 g2 g3
    refine ⟨l, by rw [leaves]; exact k1, o', k2, ?_⟩
    rw [ask, g1, Res.ok_bind]
    exact k3
theorem askAt_past : ∀ (ss : List (Sea A B W S T)) (a : A) (i o : Nat) (s : Sea A B W S T), fullAll ss = true → ss[i]? = some s → maxDoc s ≤ o →
    ∃ l ∈ leavesOf ss, ∃ o', l.size ≤ o' ∧ askAt ss i a ((o : Nat) : Int) = l.call a ((o' : Nat) : Int)
  | [], a, i, o, s, _, h, _ => by cases h
  | s' :: ss, a, 0, o, s, hf, h, hm => by
    rw [fullAll, Bool.and_eq_true] at hf
    have e : s' = s := by simpa using h
    rw [← e] at hm
    obtain ⟨l, k1, o', k2, k3⟩ := ask_past s' a o hf.1 hm
    exact ⟨l, by rw [leavesOf]; exact List.mem_append_left _ k1, o', k2, by rw [askAt]; exact k3⟩
  | s' :: ss, a, i + 1, o, s, hf, h, hm => by
    rw [fullAll, Bool.and_eq_true] at hf
    obtain ⟨l, k1, o', k2, k3⟩ := askAt_past ss a i o s hf.2 (by simpa using h) hm
    exact ⟨l, by rw [leavesOf]; exact List.mem_append_right _ k1, o', k2, by rw [askAt]; exact k3⟩
end

mutual
theorem docFreq_leaves : ∀ (s : Sea A B W S T) (t : T), docFreq s t = ((leaves s).map (·.freq t)).sum
  | .leaf l, t => by simp [docFreq, leaves]
  | .multi ss, t => by rw [docFreq, leaves, docFreqs_leaves ss t 0, Nat.zero_add]
theorem docFreqs_leaves : ∀ (ss : List (Sea A B W S T)) (t : T) (n : Nat), docFreqs ss t n = n + ((leavesOf ss).map (·.freq t)).sum
  | [], t, n => by simp [docFreqs, leavesOf]
  | s :: ss, t, n => by
    rw [docFreqs, leavesOf, docFreqs_leaves ss, docFreq_leaves s, List.map_append, List.sum_append, Nat.add_assoc]
end

theorem inOrder_append {L H : Type} (size : L → Nat) (hits : L → List (Nat × H)) : ∀ (xs ys : List L) (start : Nat),
    inOrder size hits start (xs ++ ys) = inOrder size hits start xs ++ inOrder size hits (start + (xs.map size).sum) ys := by
  intro xs
  induction xs with
  | nil => intro ys start; simp [inOrder]
  | cons x xs ih =>
    intro ys start
    rw [List.cons_append, inOrder, inOrder, ih, List.append_assoc, List.map_cons, List.sum_cons, Nat.add_assoc]

theorem inOrder_shift {L H : Type} (size : L → Nat) (hits : L → List (Nat × H)) : ∀ (xs : List L) (start k : Nat),
    inOrder size hits (start + k) xs = (inOrder size hits k xs).map fun x => (x.1, x.2.1 + start, x.2.2) := by
  intro xs
  induction xs with
  | nil => intro start k; rfl
  | cons x xs ih =>
    intro start k
    rw [inOrder, inOrder, List.map_append, List.map_map, Nat.add_assoc, ih]
    congr 1
    apply List.map_congr_left
    intro h _
    simp only [Function.comp_apply, Prod.mk.injEq, true_and, and_true]
    omega

mutual
theorem each_spec {E : Type} : ∀ (s : Sea A B W S T) (w : W) (fn : Leaf A B W S T → Nat → S → List E),
    each s w fn = (inOrder (·.size) (·.hits w) 0 (leaves s)).flatMap fun x => fn x.1 x.2.1 x.2.2
  | .leaf l, w, fn => by
    rw [each, leaves, inOrder, inOrder, List.append_nil, List.flatMap_map]
    simp only [Nat.zero_add]
  | .multi ss, w, fn => by rw [each, leaves]; exact eachOf_spec ss w 0 fn
theorem eachOf_spec {E : Type} : ∀ (ss : List (Sea A B W S T)) (w : W) (start : Nat) (fn : Leaf A B W S T → Nat → S → List E),
    eachOf ss w start fn = (inOrder (·.size) (·.hits w) start (leavesOf ss)).flatMap fun x => fn x.1 x.2.1 x.2.2
  | [], w, start, fn => by rw [eachOf, leavesOf, inOrder]; rfl
  | s :: ss, w, start, fn => by
    rw [eachOf, leavesOf, inOrder_append, List.flatMap_append, each_spec s, eachOf_spec ss, maxDoc_leaves]
    congr 1
    have := inOrder_shift (fun l : Leaf A B W S T => l.size) (fun l => l.hits w) (leaves s) start 0
    rw [Nat.add_zero] at this
    rw [this, List.flatMap_map]
end

/-- The searcher of a document reported and its number there are those of the document. -/
theorem inOrder_inWhich {L H : Type} (size : L → Nat) (hits : L → List (Nat × H)) : ∀ (ls : List L) (start : Nat), (∀ l ∈ ls, ∀ h ∈ hits l, h.1 < size l) →
    ∀ x ∈ inOrder size hits start ls, start ≤ x.2.1 ∧ x.2.1 < start + (ls.map size).sum ∧ ∃ o, (o, x.2.2) ∈ hits x.1 ∧ inWhich size ls (x.2.1 - start) = some (x.1, o) := by
  intro ls
  induction ls with
  | nil => intro start _ x hx; cases hx
  | cons l ls ih =>
    intro start hh x hx
    rw [inOrder, List.mem_append] at hx
    rw [List.map_cons, List.sum_cons]
    rcases hx with hx | hx
    · obtain ⟨h, h1, rfl⟩ := List.mem_map.1 hx
      have hlt := hh l (by simp) h h1
      dsimp only
      refine ⟨by omega, by omega, h.1, h1, ?_⟩
      rw [inWhich, if_pos (by omega), show start + h.1 - start = h.1 by omega]
    · obtain ⟨a1, a2, o, a3, a4⟩ := ih (start + size l) (fun l' hl' => hh l' (by simp [hl'])) x hx
      refine ⟨by omega, by omega, o, a3, ?_⟩
      rw [inWhich, if_neg (by omega), ← a4, Nat.sub_sub]

/-- All documents reported. -/
def found (s : List (Leaf A B W S T)) (w : W) (start : Nat) : List Nat := (inOrder (·.size) (·.hits w) start s).map (·.2.1)

theorem found_append (xs ys : List (Leaf A B W S T)) (w : W) (start : Nat) : found (xs ++ ys) w start = found xs w start ++ found ys w (start + (xs.map (·.size)).sum) := by
  unfold found
  rw [inOrder_append, List.map_append]

theorem found_shift (xs : List (Leaf A B W S T)) (w : W) (start : Nat) : found xs w start = (found xs w 0).map (· + start) := by
  unfold found
  have := inOrder_shift (fun l : Leaf A B W S T => l.size) (fun l => l.hits w) xs start 0
  rw [Nat.add_zero] at this
  rw [this, List.map_map, List.map_map]
  rfl

theorem found_lt (xs : List (Leaf A B W S T)) (w : W) (start : Nat) (h : ∀ l ∈ xs, ∀ h ∈ l.hits w, h.1 < l.size) : ∀ d ∈ found xs w start, d < start + (xs.map (·.size)).sum := by
  intro d hd
  obtain ⟨x, h1, rfl⟩ := List.mem_map.1 hd
  exact (inOrder_inWhich _ _ xs start h x h1).2.1

mutual
theorem scan_spec : ∀ (s : Sea A B W S T) (w : W) (limit off : Nat), (∀ l ∈ leaves s, ∀ h ∈ l.hits w, h.1 < l.size) →
    scan s w limit off = ((found (leaves s) w 0).filter fun d => decide (off ≤ d)).take limit
  | .leaf l, w, limit, off, _ => by
    rw [scan, leaves]
    congr 2
    unfold found
    rw [inOrder, inOrder, List.append_nil, List.map_map]
    apply List.map_congr_left
    intro h _
    simp
  | .multi ss, w, limit, off, h => by
    rw [scan, leaves]
    exact scanOf_spec ss w 0 limit off (by rw [leaves] at h; exact h)
theorem scanOf_spec : ∀ (ss : List (Sea A B W S T)) (w : W) (start limit off : Nat), (∀ l ∈ leavesOf ss, ∀ h ∈ l.hits w, h.1 < l.size) →
    scanOf ss w start limit off = ((found (leavesOf ss) w start).filter fun d => decide (off ≤ d)).take limit
  | [], w, start, limit, off, _ => by simp [scanOf, leavesOf, found, inOrder]
  | s :: ss, w, start, limit, off, h => by
    rw [leavesOf] at h
    have h1 : ∀ l ∈ leaves s, ∀ h ∈ l.hits w, h.1 < l.size := fun l hl => h l (List.mem_append_left _ hl)
    have h2 : ∀ l ∈ leavesOf ss, ∀ h ∈ l.hits w, h.1 < l.size := fun l hl => h l (List.mem_append_right _ hl)
    rw [scanOf, leavesOf, found_append, ← maxDoc_leaves, List.filter_append, List.take_append]
    by_cases hl : limit = 0
    · rw [if_pos hl, hl]; simp
    · rw [if_neg hl]
      by_cases ho : off < start + maxDoc s
      · rw [if_pos ho]
        dsimp only
        have e : (scan s w limit (if off > start then off - start else 0)).map (· + start) = ((found (leaves s) w start).filter fun d => decide (off ≤ d)).take limit := by
          rw [scan_spec s w _ _ h1, found_shift _ _ start, List.map_take, List.filter_map]
          congr 2
          apply List.filter_congr
          intro d _
          simp only [Function.comp_apply, decide_eq_decide]
          split <;> omega
        rw [e, scanOf_spec ss w _ _ _ h2]
        congr 2
        rw [List.length_take]
        omega
      · rw [if_neg ho, scanOf_spec ss w _ _ _ h2]
        have e : (found (leaves s) w start).filter (fun d => decide (off ≤ d)) = [] := by
          apply List.filter_eq_nil_iff.2
          intro d hd
          have := found_lt (leaves s) w start h1 d hd
          rw [← maxDoc_leaves] at this
          simp only [decide_eq_true_eq]
          omega
        rw [e]
        simp
end

end Ferret.SeaTree
