import Verif.Lemmas.ScorerBool

/-! The term scorer and the match-all scorer keep the contract. -/

namespace Ferret.Scorer

variable {σ ρ ε S α : Type} {P : Prop}

/-- A posting list: ascending document numbers. -/
def Sorted (ps : List (Int × Nat)) : Prop := ps.Pairwise (fun a b => a.1 < b.1) ∧ ∀ e ∈ ps, 0 ≤ e.1

/-- `v` is the view of the posting list `full`. -/
structure IsTerm (A : Arith S) (tfw : Nat → S) (norm : Int → S) (full : List (Int × Nat)) (v : View S) : Prop where
  sorted : Sorted full
  docs : ∀ d, v.docs d = true ↔ ∃ f, (d, f) ∈ full
  sc : ∀ d f, (d, f) ∈ full → v.sc d = A.mul (tfw f) (norm d)
  cnt : ∀ d, v.cnt d = 0

def termR (A : Arith S) (w : TermW S) (v : View S) (lo : Int) (_b : Bool) : Prop :=
  ∃ full pre, IsTerm A w.tfw w.norm full v ∧ full = pre ++ (w.t.buf.drop (w.t.pointer + 1) ++ w.t.tde) ∧
    ((lo = -1 ∧ pre = []) ∨
     (0 ≤ lo ∧ w.t.doc = lo ∧ ∃ e pre', w.t.buf[w.t.pointer]? = some e ∧ e.1 = lo ∧ pre = pre' ++ [e]))

theorem IsTerm.next {A : Arith S} {tfw norm full} {v : View S} (h : IsTerm A tfw norm full v) {pre sk : List (Int × Nat)} {e rest} {m : Int}
    (hf : full = pre ++ sk ++ e :: rest) (h1 : ∀ y ∈ pre, y.1 ≤ m) (h2 : ∀ y ∈ sk, y.1 ≤ m) (h3 : m < e.1) : NextAfter v m e.1 := by
  refine ⟨(h.docs _).mpr ⟨e.2, by rw [hf]; simp⟩, h3, fun x hx hm => ?_⟩
  obtain ⟨f, hxf⟩ := (h.docs x).mp hx
  have hs := h.sorted.1
  rw [hf] at hxf hs
  rcases List.mem_append.mp hxf with h4 | h4
  · rcases List.mem_append.mp h4 with h5 | h5
    · have := h1 _ h5; simp only at this; omega
    · have := h2 _ h5; simp only at this; omega
  · rcases List.mem_cons.mp h4 with h5 | h5
    · rw [← h5]; exact Int.le_refl _
    · have := (List.pairwise_cons.mp (List.pairwise_append.mp hs).2.1).1 _ h5
      simp only at this; omega

theorem IsTerm.done {A : Arith S} {tfw norm full} {v : View S} (h : IsTerm A tfw norm full v) {m : Int}
    (hf : ∀ e ∈ full, e.1 ≤ m) : ∀ x, v.docs x = true → x ≤ m := by
  intro x hx
  obtain ⟨f, hxf⟩ := (h.docs x).mp hx
  exact hf _ hxf

theorem termR.pre_le {A : Arith S} {w : TermW S} {v lo b} (h : termR A w v lo b) :
    ∃ full pre, IsTerm A w.tfw w.norm full v ∧ full = pre ++ (w.t.buf.drop (w.t.pointer + 1) ++ w.t.tde) ∧ (∀ y ∈ pre, y.1 ≤ lo) ∧
      ∀ y ∈ (w.t.buf.drop (w.t.pointer + 1) ++ w.t.tde), lo < y.1 := by
  obtain ⟨full, pre, h1, h2, h3⟩ := h
  refine ⟨full, pre, h1, h2, ?_⟩
  rcases h3 with ⟨rfl, rfl⟩ | ⟨_, _, e, pre', _, he, rfl⟩
  · refine ⟨by simp, fun y hy => ?_⟩
    have := h1.sorted.2 y (by rw [h2]; exact List.mem_append_right _ hy); omega
  · have hs := h1.sorted.1
    rw [h2, List.append_assoc] at hs
    have hs2 := List.pairwise_append.mp hs
    refine ⟨fun y hy => ?_, fun y hy => ?_⟩
    · rcases List.mem_append.mp hy with h4 | h4
      · have := hs2.2.2 y h4 e (by simp); omega
      · simp at h4; subst h4; omega
    · have := (List.pairwise_append.mp hs2.2.1).2.2 e (by simp) y hy
      omega

theorem tscScan_spec (buf : List (Int × Nat)) (n : Int) : ∀ (fuel p : Nat), buf.length < fuel + p + 1 →
    (∃ q e sk, tscScan buf n fuel p = (some q, q) ∧ buf[q]? = some e ∧ n ≤ e.1 ∧ buf.drop (p + 1) = sk ++ e :: buf.drop (q + 1) ∧ ∀ y ∈ sk, y.1 < n) ∨
    (∃ q, tscScan buf n fuel p = (none, q) ∧ buf.drop (q + 1) = [] ∧ ∀ y ∈ buf.drop (p + 1), y.1 < n) := by
  intro fuel
  induction fuel with
  | zero =>
    intro p hp
    refine .inr ⟨p, rfl, List.drop_eq_nil_of_le (by omega), fun y hy => ?_⟩
    rw [List.drop_eq_nil_of_le (by omega)] at hy; simp at hy
  | succ n' ih =>
    intro p hp
    unfold tscScan
    cases hb : buf[p + 1]? with
    | none =>
      have hl : buf.length ≤ p + 1 := List.getElem?_eq_none_iff.mp hb
      simp only []
      refine .inr ⟨p + 1, rfl, List.drop_eq_nil_of_le (by omega), fun y hy => ?_⟩
      rw [List.drop_eq_nil_of_le hl] at hy; simp at hy
    | some e =>
      simp only []
      obtain ⟨hlt, he⟩ := List.getElem?_eq_some_iff.mp hb
      have hdrop : buf.drop (p + 1) = e :: buf.drop (p + 1 + 1) := by rw [List.drop_eq_getElem_cons hlt, he]
      by_cases hge : e.1 ≥ n
      · rw [if_pos hge]
        exact .inl ⟨p + 1, e, [], rfl, hb, hge, by simpa using hdrop, by simp⟩
      · rw [if_neg hge]
        rcases ih (p + 1) (by omega) with ⟨q, e', sk, h1, h2, h3, h4, h5⟩ | ⟨q, h1, h2, h3⟩
        · refine .inl ⟨q, e', e :: sk, h1, h2, h3, by rw [hdrop, h4]; rfl, fun y hy => ?_⟩
          rcases List.mem_cons.mp hy with rfl | h6
          · omega
          · exact h5 y h6
        · refine .inr ⟨q, h1, h2, fun y hy => ?_⟩
          rw [hdrop] at hy
          rcases List.mem_cons.mp hy with rfl | h6
          · omega
          · exact h3 y h6

theorem dropWhile_cases (l : List (Int × Nat)) (n : Int) :
    (l.dropWhile (fun e => e.1 < n) = [] ∧ ∀ y ∈ l, y.1 < n) ∨
    (∃ e rest sk, l.dropWhile (fun e => e.1 < n) = e :: rest ∧ l = sk ++ e :: rest ∧ n ≤ e.1 ∧ ∀ y ∈ sk, y.1 < n) := by
  induction l with
  | nil => exact .inl ⟨rfl, by simp⟩
  | cons a l ih =>
    by_cases h : a.1 < n
    · rw [List.dropWhile_cons_of_pos (by simpa using h)]
      rcases ih with ⟨h1, h2⟩ | ⟨e, rest, sk, h1, h2, h3, h4⟩
      · refine .inl ⟨h1, fun y hy => ?_⟩
        rcases List.mem_cons.mp hy with rfl | h5
        · exact h
        · exact h2 y h5
      · refine .inr ⟨e, rest, a :: sk, h1, by rw [h2]; rfl, h3, fun y hy => ?_⟩
        rcases List.mem_cons.mp hy with rfl | h5
        · exact h
        · exact h4 y h5
    · rw [List.dropWhile_cons_of_neg (by simpa using h)]
      exact .inr ⟨a, l, [], rfl, rfl, by omega, by simp⟩

/-- Arriving on posting `e` at buffer index `q`. -/
theorem termR.arrive {A : Arith S} {w : TermW S} {v : View S} {full pre : List (Int × Nat)} (h1 : IsTerm A w.tfw w.norm full v) {e : Int × Nat} {t : Term} {b : Bool}
    (hf : full = pre ++ e :: (t.buf.drop (t.pointer + 1) ++ t.tde)) (hb : t.buf[t.pointer]? = some e) (hd : t.doc = e.1) :
    termR A { w with t := t } v e.1 b := by
  refine ⟨full, pre ++ [e], h1, by rw [hf]; simp, .inr ⟨?_, hd, e, pre, hb, rfl, rfl⟩⟩
  exact h1.sorted.2 e (by rw [hf]; simp)

theorem good_term {A : Arith S} : Good P (termOps A) (termR A) where
  lo := by
    rintro w v lo b ⟨full, pre, h1, h2, h3⟩
    rcases h3 with ⟨rfl, _⟩ | ⟨h0, _, e, pre', _, he, rfl⟩
    · exact ⟨Int.le_refl _, fun h => by omega⟩
    · exact ⟨by omega, fun _ => (h1.docs lo).mpr ⟨e.2, by rw [h2, ← he]; simp⟩⟩
  nonneg := by
    rintro w v lo b x ⟨full, pre, h1, _⟩ hx
    obtain ⟨f, hf⟩ := (h1.docs x).mp hx
    exact h1.sorted.2 _ hf
  next := by
    rintro w v lo b h
    obtain ⟨full, pre, h1, h2, h3, h4⟩ := h.pre_le
    simp only [termOps, tscNext]
    by_cases hp : w.t.pointer + 1 ≥ w.t.buf.length
    · rw [if_pos hp]
      have hnil : w.t.buf.drop (w.t.pointer + 1) = [] := List.drop_eq_nil_of_le hp
      rw [hnil, List.nil_append] at h2 h4
      cases ht : w.t.tde with
      | nil =>
        simp only [List.take_nil, List.drop_nil, Res.ok_bind]
        refine ⟨_, rfl, .inr ⟨rfl, h1.done fun e he => ?_⟩⟩
        rw [h2, ht, List.append_nil] at he
        exact h3 e he
      | cons e rest =>
        simp only [List.take_succ_cons, List.drop_succ_cons, Res.ok_bind]
        refine ⟨_, rfl, .inl ⟨rfl, e.1, h1.next (pre := pre) (sk := []) (e := e) (rest := rest) (by rw [h2, ht]; simp) h3 (by simp) (h4 e (by simp [ht])), ?_, ?_⟩⟩
        · exact termR.arrive (pre := pre) h1 (by simp only [Nat.zero_add, List.drop_succ_cons, List.drop_zero]; rw [List.take_append_drop, h2, ht]) rfl rfl
        · simp only [Nat.zero_add, List.drop_succ_cons, List.drop_zero, List.take_append_drop, hnil, ht]
          simp
    · rw [if_neg hp]
      have hlt : w.t.pointer + 1 < w.t.buf.length := by omega
      have hdrop := List.drop_eq_getElem_cons hlt
      have hget := List.getElem?_eq_getElem hlt
      generalize w.t.buf[w.t.pointer + 1] = e at hdrop hget
      rw [hget]
      simp only [Res.ok_bind]
      rw [hdrop] at h2 h4
      refine ⟨_, rfl, .inl ⟨rfl, e.1, h1.next (pre := pre) (sk := []) (e := e)
        (rest := w.t.buf.drop (w.t.pointer + 1 + 1) ++ w.t.tde) (by rw [h2]; simp) h3 (by simp) (h4 _ (by simp)), ?_, ?_⟩⟩
      · exact termR.arrive (pre := pre) h1 (by simp only []; rw [h2]; rfl) hget rfl
      · simp only [List.length_append, List.length_drop]; omega
  skip := by
    rintro w v lo b n h _ hn
    obtain ⟨full, pre, h1, h2, h3, h4⟩ := h.pre_le
    have h3' : ∀ y ∈ pre, y.1 ≤ n - 1 := fun y hy => by have := h3 y hy; omega
    simp only [termOps, tscSkipTo]
    rcases tscScan_spec w.t.buf n (w.t.buf.length + 1) w.t.pointer (by omega) with ⟨q, e, sk, k1, k2, k3, k4, k5⟩ | ⟨q, k1, k2, k3⟩
    · rw [k1]
      simp only [k2, Res.ok_bind]
      refine ⟨_, rfl, .inl ⟨rfl, e.1, h1.next (pre := pre) (sk := sk) (e := e) (rest := w.t.buf.drop (q + 1) ++ w.t.tde) (by rw [h2, k4]; simp) h3'
        (fun y hy => by have := k5 y hy; omega) (by omega), ?_, ?_⟩⟩
      · exact termR.arrive (pre := pre ++ sk) h1 (by simp only []; rw [h2, k4]; simp) k2 rfl
      · simp only []; rw [k4]; simp; omega
    · rw [k1]
      simp only []
      rcases dropWhile_cases w.t.tde n with ⟨d1, d2⟩ | ⟨e, rest, sk, d1, d2, d3, d4⟩
      · rw [d1]
        simp only [Res.ok_bind]
        refine ⟨_, rfl, .inr ⟨rfl, h1.done fun e he => ?_⟩⟩
        rw [h2] at he
        rcases List.mem_append.mp he with h5 | h5
        · exact h3' e h5
        · rcases List.mem_append.mp h5 with h6 | h6
          · have := k3 e h6; omega
          · have := d2 e h6; omega
      · rw [d1]
        simp only [Res.ok_bind]
        refine ⟨_, rfl, .inl ⟨rfl, e.1, h1.next (pre := pre) (sk := w.t.buf.drop (w.t.pointer + 1) ++ sk) (e := e) (rest := rest) (by rw [h2, d2]; simp) h3'
          (fun y hy => ?_) (by omega), ?_, ?_⟩⟩
        · rcases List.mem_append.mp hy with h6 | h6
          · have := k3 y h6; omega
          · have := d4 y h6; omega
        · exact termR.arrive (pre := pre ++ (w.t.buf.drop (w.t.pointer + 1) ++ sk)) h1 (by simp only []; rw [h2, d2]; simp) rfl rfl
        · simp only []; rw [d2]; simp; omega
  doc := by
    rintro w v lo b ⟨full, pre, h1, h2, h3⟩ h0
    rcases h3 with ⟨rfl, _⟩ | ⟨_, h, _⟩
    · omega
    · exact h
  score := by
    rintro w v lo h h0
    obtain ⟨full, pre, h1, h2, h3⟩ := id h
    rcases h3 with ⟨rfl, _⟩ | ⟨_, hdoc, e, pre', he, hel, rfl⟩
    · omega
    · have hmem : (lo, e.2) ∈ full := by rw [h2, ← hel]; simp
      have hsc := h1.sc lo e.2 hmem
      refine ⟨v.sc lo, w, ?_, fun _ => rfl, h, Nat.le_refl _⟩
      simp only [termOps, tscScore, he]
      by_cases h32 : e.2 < 32
      · rw [if_pos h32]
        have : ((List.range 32).map w.tfw)[e.2]? = some (w.tfw e.2) := by
          rw [List.getElem?_map, List.getElem?_range h32]; rfl
        rw [this, hsc, h1.cnt, hdoc]; rfl
      · rw [if_neg h32, hsc, h1.cnt, hdoc]; rfl

/-- View of a posting list. -/
def termView (A : Arith S) (tfw : Nat → S) (norm : Int → S) (ps : List (Int × Nat)) : View S where
  docs d := ps.any (fun e => e.1 = d)
  sc d := match ps.find? (fun e => e.1 = d) with
    | some e => A.mul (tfw e.2) (norm d)
    | none => A.zero
  cnt _ := 0
  skips := true

theorem find_sorted {ps : List (Int × Nat)} (h : ps.Pairwise (fun a b => a.1 < b.1)) {d f} (hm : (d, f) ∈ ps) :
    ps.find? (fun e => e.1 = d) = some (d, f) := by
  induction ps with
  | nil => simp at hm
  | cons a l ih =>
    have h2 := List.pairwise_cons.mp h
    rcases List.mem_cons.mp hm with h1 | h1
    · rw [← h1]; simp
    · have := h2.1 _ h1
      rw [List.find?_cons_of_neg (by simp only [decide_eq_true_eq]; simp only at this; omega)]
      exact ih h2.2 h1

theorem termR_new {A : Arith S} {tfw norm} {ps : List (Int × Nat)} (h : Sorted ps) :
    termR A ⟨Term.new ps, tfw, norm⟩ (termView A tfw norm ps) (-1) false := by
  refine ⟨ps, [], ⟨h, fun d => ?_, fun d f hm => ?_, fun _ => rfl⟩, by simp [Term.new], .inl ⟨rfl, rfl⟩⟩
  · simp only [termView, List.any_eq_true, decide_eq_true_eq]
    constructor
    · rintro ⟨e, he, rfl⟩; exact ⟨e.2, he⟩
    · rintro ⟨f, hf⟩; exact ⟨_, hf, rfl⟩
  · simp only [termView]
    rw [find_sorted h.1 hm]

/-! ### Match-all -/

def matchR (m : MatchAll S) (v : View S) (lo : Int) (_b : Bool) : Prop :=
  (∀ d, v.docs d = true ↔ (0 ≤ d ∧ d < m.maxDoc ∧ m.deleted d = false)) ∧ (∀ d, v.sc d = m.score) ∧ (∀ d, v.cnt d = 0) ∧
    m.doc = lo ∧ -1 ≤ lo ∧ (0 ≤ lo → v.docs lo = true)

theorem mascLoop_spec (m : MatchAll S) : ∀ (fuel : Nat) (d : Int), -1 ≤ d → ((m.maxDoc : Int) - 1 - d).toNat < fuel →
    (∃ e, mascLoop m fuel d = (true, e) ∧ d < e ∧ e < m.maxDoc ∧ m.deleted e = false ∧ ∀ x, d < x → x < e → m.deleted x = true) ∨
    (∃ e, mascLoop m fuel d = (false, e) ∧ ∀ x, d < x → x < m.maxDoc → m.deleted x = true) := by
  intro fuel
  induction fuel with
  | zero => intro d _ h; omega
  | succ n ih =>
    intro d hd hf
    unfold mascLoop
    by_cases h1 : d < (m.maxDoc : Int) - 1
    · rw [if_pos h1]
      cases h2 : m.deleted (d + 1) with
      | false =>
        rw [if_pos (by simp)]
        exact .inl ⟨d + 1, rfl, by omega, by omega, h2, fun x hx hx2 => by omega⟩
      | true =>
        rw [if_neg (by simp)]
        rcases ih (d + 1) (by omega) (by omega) with ⟨e, k1, k2, k3, k4, k5⟩ | ⟨e, k1, k2⟩
        · refine .inl ⟨e, k1, by omega, k3, k4, fun x hx hx2 => ?_⟩
          by_cases h3 : x = d + 1
          · rw [h3]; exact h2
          · exact k5 x (by omega) hx2
        · refine .inr ⟨e, k1, fun x hx hx2 => ?_⟩
          by_cases h3 : x = d + 1
          · rw [h3]; exact h2
          · exact k2 x (by omega) hx2
    · rw [if_neg h1]
      exact .inr ⟨d, rfl, fun x hx hx2 => by omega⟩

theorem mascNext_spec {m : MatchAll S} {v : View S} {d0 lo : Int} (hd : ∀ d, v.docs d = true ↔ (0 ≤ d ∧ d < m.maxDoc ∧ m.deleted d = false))
    (hs : ∀ d, v.sc d = m.score) (hc : ∀ d, v.cnt d = 0) (hlo : -1 ≤ lo) (h0 : d0 ≤ lo) (s : MatchAll S) (hsm : s.maxDoc = m.maxDoc) (hsd : s.doc = d0) :
    Moved matchAllOps matchR v lo s (mascNext { m with doc := lo }) := by
  unfold mascNext
  simp only []
  rcases mascLoop_spec { m with doc := lo } (((m.maxDoc : Int) - 1 - lo).toNat + 1) lo hlo (by simp) with ⟨e, k1, k2, k3, k4, k5⟩ | ⟨e, k1, k2⟩
  · rw [k1]
    simp only at k3 k4 k5
    have hv : v.docs e = true := (hd e).mpr ⟨by omega, k3, k4⟩
    refine .inl ⟨rfl, e, ⟨hv, k2, fun x hx hxl => ?_⟩, ⟨hd, hs, hc, rfl, by omega, fun _ => hv⟩, ?_⟩
    · by_cases hlt : x < e
      · have := k5 x hxl hlt
        rw [((hd x).mp hx).2.2] at this; cases this
      · omega
    · simp only [matchAllOps]; rw [hsm, hsd]; omega
  · rw [k1]
    refine .inr ⟨rfl, fun x hx => ?_⟩
    by_cases hxl : lo < x
    · have h1 := (hd x).mp hx
      have := k2 x hxl h1.2.1
      simp only at this
      rw [h1.2.2] at this; cases this
    · omega

theorem good_matchAll : Good P (matchAllOps (S := S)) matchR where
  lo := by rintro m v lo b ⟨_, _, _, _, h, h'⟩; exact ⟨h, h'⟩
  nonneg := by rintro m v lo b x ⟨h, _⟩ hx; exact ((h x).mp hx).1
  next := by
    rintro m v lo b ⟨h1, h2, h3, h4, h5, _⟩
    refine ⟨_, rfl, ?_⟩
    have : m = { m with doc := lo } := by cases m; simp only at h4; subst h4; rfl
    have h := mascNext_spec (m := m) h1 h2 h3 h5 (Int.le_refl lo) m rfl h4
    rw [← this] at h; exact h
  skip := by
    rintro m v lo b n ⟨h1, h2, h3, h4, h5, _⟩ _ hn
    exact ⟨_, rfl, mascNext_spec (m := m) h1 h2 h3 (by omega) (show lo ≤ n - 1 by omega) m rfl h4⟩
  doc := by rintro m v lo b ⟨_, _, _, h, _⟩ _; exact h
  score := by
    rintro m v lo h h0
    refine ⟨m.score, m, ?_, fun _ => (h.2.1 lo).symm, h, Nat.le_refl _⟩
    simp [matchAllOps, h.2.2.1]

/-- View of the match-all scorer. -/
def allView (deleted : Int → Bool) (maxDoc : Nat) (score : S) : View S where
  docs d := decide (0 ≤ d) && decide (d < maxDoc) && !deleted d
  sc _ := score
  cnt _ := 0
  skips := true

theorem matchR_new {deleted : Int → Bool} {maxDoc : Nat} {score : S} :
    matchR ⟨deleted, maxDoc, score, -1⟩ (allView deleted maxDoc score) (-1) false :=
  ⟨fun d => by simp [allView, and_assoc], fun _ => rfl, fun _ => rfl, rfl, Int.le_refl _, fun h => by omega⟩

end Ferret.Scorer
