import Verif.Lemmas.QueryRound
import Verif.Lemmas.QueryTextTree
import Verif.Props.C78

/-! Reading the texts of words, patterns, ranges and phrases back. -/

namespace Ferret.QRound

open Ferret.Spec
open Ferret.QP

/-- A text, its tokens, and what parsing needs of them. -/
structure Piece (cfg : Cfg) (qlen : Nat) (x : List Char) (ts : List QTok) : Prop where
  reads : Reads cfg.keywords qlen x ts
  clear : Clear x
  fine : Fine cfg ts
  starts : ts ≠ [] ∧ Starts ts
  head : ∃ c r, x = c :: r ∧ c ≠ ':'

variable {cfg : Cfg} {qlen : Nat}

theorem plain_head {keys : Bool} {w : QWord} (h : readsPlain keys w) : ∃ c r, w = c :: r ∧ c ∉ qEscaped := h.1
theorem plain_clear {keys : Bool} {w : QWord} (h : readsPlain keys w) : Clear w := clear_plain fun c hc => ⟨(h.2.1 c hc).1, (h.2.1 c hc).2.1⟩

theorem ne_of_plain {c : Char} (h : c ∉ qEscaped) : c ≠ ':' ∧ c ≠ '|' := by
  constructor <;> (rintro rfl; exact h (by decide))

theorem piece_word {w : QWord} (h : readsPlain cfg.keywords w) : Piece cfg qlen w [.word w] where
  reads := reads_word h
  clear := (plain_clear h)
  fine := fine_word h.2.2.2
  starts := ⟨by simp, by simp [Starts]⟩
  head := by
    obtain ⟨c, r, e, hc⟩ := h.1
    exact ⟨c, r, e, (ne_of_plain hc).1⟩

theorem piece_pattern {w : QWord} (h : readsPattern w) : Piece cfg qlen w [.wild w] where
  reads := reads_pattern h
  clear := clear_plain fun c hc => ⟨(h.2.1 c hc).1, (h.2.1 c hc).2.1⟩
  fine := fine_nil.cons (by intro v hv; rcases hv with hv | hv <;> cases hv; exact h.2.2.2) (by simp) (by simp) (by simp)
  starts := ⟨by simp, by simp [Starts]⟩
  head := by
    obtain ⟨c, r, e, -⟩ := h.1
    exact ⟨c, r, e, (h.2.1 c (by rw [e]; simp)).2.2⟩

/-- What is put behind a text. -/
structure Tail (cfg : Cfg) (qlen : Nat) (x : List Char) (ts : List QTok) : Prop where
  reads : Reads cfg.keywords qlen x ts
  clear : Clear x
  fine : Fine cfg ts
  stops : Stops x

theorem Piece.tail {a b : List Char} {ts us : List QTok} (ha : Piece cfg qlen a ts) (hb : Tail cfg qlen b us) (hs : us = [] ∨ Starts us) :
    Piece cfg qlen (a ++ b) (ts ++ us) where
  reads := reads_append ha.reads hb.reads hb.stops
  clear := ha.clear.append hb.clear
  fine := ha.fine.append hb.fine hs
  starts := by
    obtain ⟨h1, h2⟩ := ha.starts
    refine ⟨by simp [h1], ?_⟩
    cases ts with
    | nil => exact absurd rfl h1
    | cons t ts => exact ⟨by simpa using h2.1, by simpa using h2.2⟩
  head := by
    obtain ⟨c, r, e, h⟩ := ha.head
    exact ⟨c, r ++ b, by rw [e]; rfl, h⟩

theorem tail_nil : Tail cfg qlen [] [] := ⟨reads_nil, Clear.nil, fine_nil, Or.inl rfl⟩

theorem tail_mark {c : Char} (hc : c = '^' ∨ c = '~') {w : QWord} (h : readsPlain cfg.keywords w) : Tail cfg qlen (c :: w) [.sym c, .word w] where
  reads := reads_mark (by rcases hc with rfl | rfl <;> decide) (by rcases hc with rfl | rfl <;> decide) (reads_word h)
  clear := clear_cons (by rcases hc with rfl | rfl <;> decide) (plain_clear h)
  fine := (fine_word h.2.2.2).cons (by simp) (by rcases hc with rfl | rfl <;> simp) (by rcases hc with rfl | rfl <;> simp) (by rcases hc with rfl | rfl <;> simp)
  stops := Or.inr ⟨c, w, rfl, by rcases hc with rfl | rfl <;> decide⟩

theorem tail_tilde : Tail cfg qlen ['~'] [.sym '~'] where
  reads := reads_mark (by decide) (by decide) reads_nil
  clear := clear_cons (by decide) Clear.nil
  fine := fine_nil.cons (by simp) (by simp) (by simp) (by simp)
  stops := Or.inr ⟨'~', [], rfl, by decide⟩

/-! ### Fuzzy words -/

theorem Fine.snoc_any {ts us : List QTok} {t : QTok} (h1 : Fine cfg (t :: us)) (h2 : ∀ rest, Local cfg (t :: (us ++ rest)) → Local cfg (ts ++ (t :: (us ++ rest)))) :
    Fine cfg (ts ++ t :: us) := by
  intro rest hs hr
  rw [List.append_assoc]
  exact h2 rest (h1 rest hs hr)

theorem piece_fuzzy {w x : QWord} {us : List QTok} (h : readsPlain cfg.keywords w) (hb : Tail cfg qlen ('~' :: x) (.sym '~' :: us)) :
    Piece cfg qlen (w ++ '~' :: x) (.word w :: .sym '~' :: us) where
  reads := reads_append (reads_word h) hb.reads hb.stops
  clear := (plain_clear h).append hb.clear
  fine := hb.fine.cons (by intro v hv; rcases hv with hv | hv <;> cases hv; exact h.2.2.2) (by simp) (by simp) (by simp)
  starts := ⟨by simp, by simp [Starts]⟩
  head := by
    obtain ⟨c, r, e, hc⟩ := h.1
    exact ⟨c, r ++ '~' :: x, by rw [e]; rfl, (ne_of_plain hc).1⟩

/-! ### Ranges -/

theorem piece_between {x y : QWord} (hx : readsPlain cfg.keywords x) (hy : readsPlain cfg.keywords y) (i j : Bool)
    (ho : cfg.inOrder x y = true ∧ cfg.inOrder (x.map cfg.lower) (y.map cfg.lower) = true) :
    Piece cfg qlen ((if i then '[' else '{') :: x ++ ' ' :: y ++ [if j then ']' else '}']) (QLeaf.between x y i j).written := by
  have e : (if i then '[' else '{') :: x ++ ' ' :: y ++ [if j then ']' else '}'] = (if i then '[' else '{') :: (x ++ (' ' :: (y ++ [if j then ']' else '}']))) := by simp
  have hend : Reads cfg.keywords qlen [if j then ']' else '}'] [.sym (if j then ']' else '}')] := by
    cases j
    · exact reads_mark (by decide) (by decide) reads_nil
    · exact reads_mark (by decide) (by decide) reads_nil
  have hce : Clear [if j then ']' else '}'] := by cases j <;> exact clear_one (by decide)
  have hse : Stops [if j then ']' else '}'] := Or.inr ⟨_, [], rfl, by cases j <;> decide⟩
  have h2 := reads_append (reads_word (qlen := qlen) hy) hend hse
  have h3 := reads_append (reads_word (qlen := qlen) hx) (reads_blank h2) (Or.inr ⟨' ', _, rfl, by decide⟩)
  have hw : (QLeaf.between x y i j).written = [.sym (if i then '[' else '{'), .word x, .word y, .sym (if j then ']' else '}')] := by cases i <;> cases j <;> rfl
  rw [e, hw]
  refine ⟨?_, ?_, ?_, ⟨by simp, ?_⟩, ?_⟩
  · cases i
    · exact reads_mark (by decide) (by decide) h3
    · exact reads_mark (by decide) (by decide) h3
  · have hc := (plain_clear hx).append (clear_cons (c := ' ') (by decide) ((plain_clear hy).append hce))
    cases i
    · exact clear_cons (by decide) hc
    · exact clear_cons (by decide) hc
  · intro rest hs hr
    refine ⟨?_, ?_, ?_, ?_, ?_, ?_, ?_, ?_, ?_⟩
    · intro w hw; rcases hw with hw | hw <;> cases hw
    · intro e; cases i <;> simp at e
    · intro e; cases i <;> simp at e
    · intro _ x' y' r e
      cases e
      exact ho
    · intro w hw; rcases hw with hw | hw <;> cases hw; exact hx.2.2.2
    · intro e; cases e
    · intro e; cases e
    · intro e; rcases e with e | e <;> cases e
    · refine ⟨?_, ?_, ?_, ?_, ?_⟩
      · intro w hw; rcases hw with hw | hw <;> cases hw; exact hy.2.2.2
      · intro e; cases e
      · intro e; cases e
      · intro e; rcases e with e | e <;> cases e
      · refine ⟨?_, ?_, ?_, ?_, hr⟩
        · intro w hw; rcases hw with hw | hw <;> cases hw
        · intro e; cases j <;> simp at e
        · intro e; cases j <;> simp at e
        · intro e; cases j <;> simp at e
  · cases i <;> simp [Starts]
  · exact ⟨_, _, rfl, by cases i <;> decide⟩

theorem piece_below {y : QWord} (hy : readsPlain cfg.keywords y) (j : Bool) :
    Piece cfg qlen ('<' :: y ++ [if j then ']' else '}']) (QLeaf.below y j true).written := by
  have hend : Reads cfg.keywords qlen [if j then ']' else '}'] [.sym (if j then ']' else '}')] := by
    cases j
    · exact reads_mark (by decide) (by decide) reads_nil
    · exact reads_mark (by decide) (by decide) reads_nil
  have hce : Clear [if j then ']' else '}'] := by cases j <;> exact clear_one (by decide)
  have hse : Stops [if j then ']' else '}'] := Or.inr ⟨_, [], rfl, by cases j <;> decide⟩
  have h2 := reads_append (reads_word (qlen := qlen) hy) hend hse
  have hw : (QLeaf.below y j true).written = [.sym '<', .word y, .sym (if j then ']' else '}')] := by cases j <;> rfl
  rw [hw]
  refine ⟨reads_mark (by decide) (by decide) h2, clear_cons (by decide) ((plain_clear hy).append hce), ?_, ⟨by simp, by simp [Starts]⟩, ⟨_, _, rfl, by decide⟩⟩
  refine Fine.cons (Fine.cons (Fine.cons fine_nil ?_ ?_ ?_ ?_) ?_ ?_ ?_ ?_) ?_ ?_ ?_ ?_
  all_goals first
    | (intro w hw; rcases hw with hw | hw <;> cases hw <;> exact hy.2.2.2)
    | (cases j <;> simp)

theorem piece_above {x : QWord} (hx : readsPlain cfg.keywords x) (i : Bool) :
    Piece cfg qlen ((if i then '[' else '{') :: x ++ ['>']) (QLeaf.above x i true).written := by
  have h2 := reads_append (reads_word (qlen := qlen) hx) (reads_mark (c := '>') (by decide) (by decide) reads_nil) (Or.inr ⟨'>', [], rfl, by decide⟩)
  have hw : (QLeaf.above x i true).written = [.sym (if i then '[' else '{'), .word x, .sym '>'] := by cases i <;> rfl
  rw [hw]
  refine ⟨?_, ?_, ?_, ⟨by simp, ?_⟩, ⟨_, _, rfl, by cases i <;> decide⟩⟩
  · cases i
    · exact reads_mark (by decide) (by decide) h2
    · exact reads_mark (by decide) (by decide) h2
  · have hc := (plain_clear hx).append (clear_one (c := '>') (by decide))
    cases i
    · exact clear_cons (by decide) hc
    · exact clear_cons (by decide) hc
  · intro rest hs hr
    refine ⟨?_, ?_, ?_, ?_, ?_, ?_, ?_, ?_, ?_⟩
    · intro w hw; rcases hw with hw | hw <;> cases hw
    · intro e; cases i <;> simp at e
    · intro e; cases i <;> simp at e
    · intro _ x' y' r e
      simp at e
    · intro w hw; rcases hw with hw | hw <;> cases hw; exact hx.2.2.2
    · intro e; cases e
    · intro e; cases e
    · intro e; rcases e with e | e <;> cases e
    · refine ⟨?_, ?_, ?_, ?_, hr⟩
      · intro w hw; rcases hw with hw | hw <;> cases hw
      · intro _; exact hs.1
      · intro e; cases e
      · intro e; rcases e with e | e <;> cases e
  · cases i <;> simp [Starts]

/-! ### Numbers -/

theorem digit_facts : ∀ d < 10, (Char.ofNat (48 + d)).isDigit = true ∧ (Char.ofNat (48 + d)).toNat - '0'.toNat = d ∧ Char.ofNat (48 + d) ∉ qEscaped ∧
    Char.ofNat (48 + d) ∉ qEnds ∧ Char.ofNat (48 + d) ≠ '*' ∧ Char.ofNat (48 + d) ≠ '?' ∧ Char.ofNat (48 + d) ≠ 'A' ∧ Char.ofNat (48 + d) ≠ 'O' ∧
    Char.ofNat (48 + d) ≠ 'N' ∧ Char.ofNat (48 + d) ≠ 'R' := by decide

theorem digitsGo_spec : ∀ (k n : Nat) (acc : List Char), n < 10 ^ (k + 1) → ∃ ds : List Nat, digitsGo (k + 1) n acc = ds.map (fun d => Char.ofNat (48 + d)) ++ acc ∧
    ds ≠ [] ∧ (∀ d ∈ ds, d < 10) ∧ ds.foldl (fun m d => m * 10 + d) 0 = n ∧ ∀ j, n < 10 ^ (j + 1) → ds.length ≤ j + 1
  | k, n, acc, h => by
    rw [digitsGo]
    by_cases hn : n < 10
    · rw [if_pos hn]
      exact ⟨[n], rfl, by simp, by simpa using hn, by simp, by intro j _; simp⟩
    · rw [if_neg hn]
      cases k with
      | zero => omega
      | succ k =>
        obtain ⟨ds, h1, h2, h3, h4, h5⟩ := digitsGo_spec k (n / 10) (Char.ofNat (48 + n % 10) :: acc) (by
          rw [Nat.pow_succ] at h
          omega)
        refine ⟨ds ++ [n % 10], by rw [h1]; simp, by simp, ?_, ?_, ?_⟩
        · intro d hd
          rcases List.mem_append.1 hd with hd | hd
          · exact h3 d hd
          · simp at hd; omega
        · rw [List.foldl_append, h4]; simp; omega
        · intro j hj
          rw [List.length_append]
          cases j with
          | zero => omega
          | succ j =>
            have := h5 j (by rw [Nat.pow_succ] at hj; omega)
            simp; omega

theorem decimal_map {ds : List Nat} (h : ∀ d ∈ ds, d < 10) : ∀ m, (ds.map (fun d => Char.ofNat (48 + d))).foldl (fun n c => n * 10 + (c.toNat - '0'.toNat)) m =
    ds.foldl (fun m d => m * 10 + d) m := by
  induction ds with
  | nil => intro m; rfl
  | cons d ds ih =>
    intro m
    rw [List.map_cons, List.foldl_cons, List.foldl_cons, (digit_facts d (h d (by simp))).2.1]
    exact ih (fun x hx => h x (List.mem_cons_of_mem _ hx)) _

/-- A slop is read as itself. -/
theorem slop_read {keys : Bool} {n : Int} (h0 : 0 ≤ n) (h1 : n < 1000000000) : readsPlain keys (intText n) ∧ slopValue (some (intText n)) n ∧ qNumber (intText n) := by
  obtain ⟨ds, e1, e2, e3, e4, e5⟩ := digitsGo_spec 19 n.natAbs [] (by omega)
  have e : intText n = ds.map (fun d => Char.ofNat (48 + d)) := by
    unfold intText
    rw [if_neg (by omega), List.nil_append, e1, List.append_nil]
  have hlen : ds.length ≤ 9 := e5 8 (by omega)
  have hne : ds.map (fun d => Char.ofNat (48 + d)) ≠ [] := by simpa using e2
  have hdig : ∀ c ∈ ds.map (fun d => Char.ofNat (48 + d)), c.isDigit = true := by
    intro c hc
    obtain ⟨d, hd, rfl⟩ := List.mem_map.1 hc
    exact (digit_facts d (e3 d hd)).1
  rw [e]
  refine ⟨⟨?_, ?_, ?_, ?_⟩, ⟨[], _, rfl, Or.inl ⟨Or.inl rfl, ?_⟩, hne, hdig, by simpa using hlen⟩, ⟨[], _, rfl, Or.inl rfl, hne, hdig, by simpa using hlen⟩⟩
  · cases ds with
    | nil => exact absurd rfl e2
    | cons d ds => exact ⟨_, _, rfl, (digit_facts d (e3 d (by simp))).2.2.1⟩
  · intro c hc
    obtain ⟨d, hd, rfl⟩ := List.mem_map.1 hc
    have hf := digit_facts d (e3 d hd)
    have hx := not_escaped hf.2.2.1
    exact ⟨hx.1, hx.2.1, hx.2.2.1, hf.2.2.2.2.1, hf.2.2.2.2.2.1⟩
  · intro _ hm
    cases ds with
    | nil => exact absurd rfl e2
    | cons d ds =>
      have hf := (digit_facts d (e3 d (by simp))).2.2.2.2.2.2
      simp only [qReserved, List.map_cons, List.mem_cons, List.cons.injEq, List.not_mem_nil, or_false] at hm
      rcases hm with hm | hm | hm | hm
      · exact hf.1 hm.1
      · exact hf.2.1 hm.1
      · exact hf.2.2.1 hm.1
      · exact hf.2.2.2 hm.1
  · rw [List.length_map]; omega
  · rw [decimal, decimal_map e3, e4]; omega

end Ferret.QRound
