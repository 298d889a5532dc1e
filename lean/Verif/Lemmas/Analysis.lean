import Verif.Model.Analysis
import Verif.Spec.Tokens

/-!
What the streams of tokenizers give.
-/

namespace Ferret.Ana
open Ferret Ferret.Spec

/-- The bytes that characters take. -/
def width (cs : List (Nat × Nat)) : Nat := (cs.map (·.2)).sum

theorem width_append (a b : List (Nat × Nat)) : width (a ++ b) = width a + width b := by
  simp [width]

theorem skip_eq (p : Nat → Bool) : ∀ (cs : List (Nat × Nat)) (off : Nat),
    skip p off cs = (off + width (cs.takeWhile fun c => p c.1), cs.dropWhile fun c => p c.1) := by
  intro cs
  induction cs with
  | nil => intro off; simp [skip, width]
  | cons c cs ih =>
    intro off
    simp only [skip, List.takeWhile_cons, List.dropWhile_cons]
    by_cases h : p c.1 = true
    · rw [if_pos h, if_pos h, if_pos h, ih]
      simp [width, Nat.add_assoc]
    · rw [if_neg h, if_neg h, if_neg h]
      simp [width]

theorem takeWhile_all {α : Type} (p : α → Bool) : ∀ (l : List α), ∀ x ∈ l.takeWhile p, p x = true := by
  intro l
  induction l with
  | nil => simp
  | cons a l ih =>
    intro x hx
    rw [List.takeWhile_cons] at hx
    split at hx
    · rename_i h
      rcases List.mem_cons.1 hx with rfl | hx
      · exact h
      · exact ih x hx
    · cases hx

theorem dropWhile_head {α : Type} (p : α → Bool) : ∀ (l : List α) (x : α) (xs : List α), l.dropWhile p = x :: xs → p x = false := by
  intro l
  induction l with
  | nil => intro x xs h; simp at h
  | cons a l ih =>
    intro x xs h
    rw [List.dropWhile_cons] at h
    split at h
    · exact ih x xs h
    · rename_i hn
      injection h with h1 _
      subst h1
      simpa using hn

/-- What follows the next token: characters that are not of the kind, then the run. -/
theorem next_split (p : Nat → Bool) (cs : List (Nat × Nat)) :
    (∀ c ∈ cs, p c.1 = false) ∨ ∃ a c r b, cs = a ++ (c :: r) ++ b ∧ (∀ x ∈ a, p x.1 = false) ∧ (∀ x ∈ c :: r, p x.1 = true) ∧
      (∀ x xs, b = x :: xs → p x.1 = false) ∧ cs.takeWhile (fun c => !p c.1) = a ∧ cs.dropWhile (fun c => !p c.1) = c :: (r ++ b) ∧
      (r ++ b).takeWhile (fun c => p c.1) = r ∧ (r ++ b).dropWhile (fun c => p c.1) = b := by
  have hall := takeWhile_all (fun c : Nat × Nat => !p c.1) cs
  have hsp := List.takeWhile_append_dropWhile (p := fun c : Nat × Nat => !p c.1) (l := cs)
  cases hd : cs.dropWhile (fun c => !p c.1) with
  | nil =>
    left
    rw [hd, List.append_nil] at hsp
    rw [hsp] at hall
    intro c hc
    simpa using hall c hc
  | cons c cs' =>
    right
    have hc := dropWhile_head _ _ _ _ hd
    have hall2 := takeWhile_all (fun c : Nat × Nat => p c.1) cs'
    have hsp2 := List.takeWhile_append_dropWhile (p := fun c : Nat × Nat => p c.1) (l := cs')
    refine ⟨cs.takeWhile (fun c => !p c.1), c, cs'.takeWhile (fun c => p c.1), cs'.dropWhile (fun c => p c.1), ?_, ?_, ?_, ?_, rfl, ?_, ?_, ?_⟩
    · rw [List.append_assoc, List.cons_append, hsp2, ← hd, hsp]
    · intro x hx; simpa using hall x hx
    · intro x hx
      rcases List.mem_cons.1 hx with rfl | hx
      · simpa using hc
      · exact hall2 x hx
    · intro x xs hx
      exact dropWhile_head (fun c : Nat × Nat => p c.1) _ _ _ hx
    · rw [hsp2]
    · rw [hsp2]
    · rw [hsp2]

/-- Runs from `n` on. -/
def RunsFrom {α : Type} (p : α → Bool) (cs : List α) (n : Nat) (spans : List (Nat × Nat)) : Prop :=
  (spans.Pairwise fun a b => a.2 < b.1) ∧ ∀ i j, (i, j) ∈ spans ↔ n ≤ i ∧ Run p cs i j

theorem runsFrom_none {α : Type} (p : α → Bool) (done rest : List α) (h : ∀ c ∈ rest, p c = false) :
    RunsFrom p (done ++ rest) done.length [] := by
  refine ⟨.nil, ?_⟩
  intro i j
  simp only [List.not_mem_nil, false_iff, not_and]
  intro hi hr
  obtain ⟨c, hc, hp⟩ := hr.all i (Nat.le_refl _) hr.some
  rw [List.getElem?_append_right hi] at hc
  rw [h c (List.mem_of_getElem? hc)] at hp
  cases hp

theorem getElem?_mid {α : Type} (d a r b : List α) (k : Nat) (h1 : (d ++ a).length ≤ k) (h2 : k < (d ++ a).length + r.length) :
    ∃ x ∈ r, (d ++ (a ++ r ++ b))[k]? = some x := by
  have e : d ++ (a ++ r ++ b) = (d ++ a) ++ (r ++ b) := by simp
  rw [e, List.getElem?_append_right h1, List.getElem?_append_left (by omega)]
  exact ⟨r[k - (d ++ a).length]'(by omega), List.getElem_mem _, List.getElem?_eq_getElem _⟩

theorem getElem?_gap {α : Type} (d a r b : List α) (k : Nat) (h1 : d.length ≤ k) (h2 : k < (d ++ a).length) :
    ∃ x ∈ a, (d ++ (a ++ r ++ b))[k]? = some x := by
  have e : d ++ (a ++ r ++ b) = d ++ (a ++ (r ++ b)) := by simp
  simp only [List.length_append] at h2
  rw [e, List.getElem?_append_right h1, List.getElem?_append_left (by omega)]
  exact ⟨a[k - d.length]'(by omega), List.getElem_mem _, List.getElem?_eq_getElem _⟩

theorem runsFrom_cons {α : Type} (p : α → Bool) (d a r b : List α) (spans : List (Nat × Nat)) (hr0 : r ≠ [])
    (hd : ∀ x, a = [] → d.getLast? = some x → p x = false) (ha : ∀ x ∈ a, p x = false) (hr : ∀ x ∈ r, p x = true)
    (hb : ∀ x xs, b = x :: xs → p x = false)
    (h : RunsFrom p (d ++ (a ++ r ++ b)) ((d ++ a).length + r.length) spans) :
    RunsFrom p (d ++ (a ++ r ++ b)) d.length (((d ++ a).length, (d ++ a).length + r.length) :: spans) := by
  obtain ⟨h1, h2⟩ := h
  have hrl : 0 < r.length := List.length_pos_iff.2 hr0
  have hend : ∀ c, (d ++ (a ++ r ++ b))[(d ++ a).length + r.length]? = some c → p c = false := by
    intro c hc
    have e : d ++ (a ++ r ++ b) = (d ++ a ++ r) ++ b := by simp
    rw [e, List.getElem?_append_right (by simp only [List.length_append]; omega), show (d ++ a).length + r.length - (d ++ a ++ r).length = 0 by simp; omega] at hc
    cases b with
    | nil => simp at hc
    | cons x xs =>
      simp only [List.getElem?_cons_zero, Option.some.injEq] at hc
      subst hc
      exact hb _ _ rfl
  refine ⟨?_, ?_⟩
  · rw [List.pairwise_cons]
    refine ⟨?_, h1⟩
    intro s hs
    obtain ⟨h3, h4⟩ := (h2 s.1 s.2).1 hs
    show (d ++ a).length + r.length < s.1
    rcases Nat.lt_or_eq_of_le h3 with h5 | h5
    · exact h5
    · exfalso
      obtain ⟨c, hc, hp⟩ := h4.all s.1 (Nat.le_refl _) h4.some
      rw [← h5] at hc
      rw [hend c hc] at hp
      cases hp
  · intro i j
    rw [List.mem_cons, h2]
    constructor
    · rintro (h3 | ⟨h3, h4⟩)
      · injection h3 with e1 e2
        subst e1 e2
        refine ⟨by simp, by omega, by simp; omega, ?_, ?_, hend⟩
        · intro k hk1 hk2
          obtain ⟨x, hx, e⟩ := getElem?_mid d a r b k hk1 hk2
          exact ⟨x, e, hr x hx⟩
        · intro c hpos hc
          cases hal : a with
          | nil =>
            subst hal
            rw [List.append_nil] at hpos hc
            rw [List.getElem?_append_left (by omega)] at hc
            exact hd c rfl (by rw [List.getLast?_eq_getElem?]; exact hc)
          | cons y ys =>
            obtain ⟨x, hx, e⟩ := getElem?_gap d a r b ((d ++ a).length - 1) (by rw [hal]; simp) (by rw [hal]; simp)
            rw [e] at hc
            injection hc with hc
            subst hc
            exact ha x hx
      · exact ⟨by simp only [List.length_append] at h3; omega, h4⟩
    · rintro ⟨h3, h4⟩
      obtain ⟨c, hc, hp⟩ := h4.all i (Nat.le_refl _) h4.some
      rcases Nat.lt_or_ge i (d ++ a).length with h5 | h5
      · exfalso
        obtain ⟨x, hx, e⟩ := getElem?_gap d a r b i h3 h5
        rw [e] at hc
        injection hc with hc
        subst hc
        rw [ha _ hx] at hp
        cases hp
      rcases Nat.lt_or_ge i ((d ++ a).length + r.length) with h6 | h6
      · rcases Nat.lt_or_eq_of_le h5 with h7 | h7
        · exfalso
          obtain ⟨x, hx, e⟩ := getElem?_mid d a r b (i - 1) (by omega) (by omega)
          have := h4.before x (by omega) e
          rw [hr x hx] at this
          cases this
        · left
          subst h7
          rcases Nat.lt_trichotomy j ((d ++ a).length + r.length) with h8 | h8 | h8
          · exfalso
            have h9 := h4.some
            obtain ⟨x, hx, e⟩ := getElem?_mid d a r b j (by omega) h8
            have := h4.after x e
            rw [hr x hx] at this
            cases this
          · rw [h8]
          · exfalso
            obtain ⟨y, hy, hpy⟩ := h4.all ((d ++ a).length + r.length) (by omega) h8
            rw [hend y hy] at hpy
            cases hpy
      · exact .inr ⟨h6, h4⟩

/-- Draining a stream that gives, for each run of characters, the token `mk` makes of what is before it, the run, and what
follows. -/
theorem drain_runs (p : Nat → Bool) (text : List Byte) (next : Tz → Res (Option (Token × Tz)))
    (mk : List (Nat × Nat) → List (Nat × Nat) → Token) (Q : Nat → Prop)
    (hnone : ∀ off cs, (∀ c ∈ cs, p c.1 = false) → next ⟨text, off, cs⟩ = .ok none)
    (hsome : ∀ done a c r b, (∀ x ∈ c :: r, Q x.1) → (∀ x ∈ a, p x.1 = false) → (∀ x ∈ c :: r, p x.1 = true) → (∀ x xs, b = x :: xs → p x.1 = false) →
      next ⟨text, width done, a ++ (c :: r) ++ b⟩ = .ok (some (mk (done ++ a) (c :: r), ⟨text, width (done ++ a ++ (c :: r)), b⟩))) :
    ∀ (f : Nat) (done rest : List (Nat × Nat)), rest.length < f → (∀ x ∈ rest, Q x.1) →
      (∀ x y, done.getLast? = some x → rest.head? = some y → p x.1 = false ∨ p y.1 = false) →
      ∃ spans, RunsFrom (fun c => p c.1) (done ++ rest) done.length spans ∧
        drain next f ⟨text, width done, rest⟩ =
          .ok (spans.map fun s => mk ((done ++ rest).take s.1) (between (done ++ rest) s.1 s.2)) := by
  intro f
  induction f with
  | zero => intro _ _ h; omega
  | succ f ih =>
    intro done rest hf hQ hb
    rcases next_split p rest with h | ⟨a, c, r, b, e, ha, hr, hb', _⟩
    · refine ⟨[], runsFrom_none _ _ _ h, ?_⟩
      simp only [drain]
      rw [hnone _ _ h]
      rfl
    · subst e
      obtain ⟨spans, h1, h2⟩ := ih (done ++ a ++ (c :: r)) b (by simp at hf; omega) (fun x hx => hQ x (by simp [hx])) (by
        intro x y hx hy
        right
        cases b with
        | nil => simp at hy
        | cons z zs =>
          simp only [List.head?_cons, Option.some.injEq] at hy
          subst hy
          exact hb' _ _ rfl)
      have ecs : done ++ a ++ (c :: r) ++ b = done ++ (a ++ (c :: r) ++ b) := by simp
      rw [ecs] at h1 h2
      refine ⟨((done ++ a).length, (done ++ a).length + (c :: r).length) :: spans, ?_, ?_⟩
      · refine runsFrom_cons _ _ _ _ _ _ (by simp) ?_ ha hr hb' ?_
        · intro x ha0 hx
          subst ha0
          rcases hb x c hx (by simp) with h | h
          · exact h
          · rw [hr c (by simp)] at h
            cases h
        · rwa [← List.length_append]
      · simp only [drain]
        rw [hsome done a c r b (fun x hx => hQ x (by rw [List.append_assoc]; exact List.mem_append_right _ (List.mem_append_left _ hx))) ha hr hb', Res.ok_bind]
        dsimp only
        rw [h2, Res.ok_bind, List.map_cons]
        congr 2
        dsimp only
        have e1 : (done ++ (a ++ (c :: r) ++ b)).take (done ++ a).length = done ++ a := by
          rw [show done ++ (a ++ (c :: r) ++ b) = (done ++ a) ++ ((c :: r) ++ b) by simp, List.take_append_of_le_length (Nat.le_refl _), List.take_length]
        have e2 : between (done ++ (a ++ (c :: r) ++ b)) (done ++ a).length ((done ++ a).length + (c :: r).length) = c :: r := by
          unfold between
          rw [show done ++ (a ++ (c :: r) ++ b) = (done ++ a) ++ ((c :: r) ++ b) by simp, List.drop_append_of_le_length (Nat.le_refl _), List.drop_length,
            Nat.add_sub_cancel_left, List.nil_append, List.take_append_of_le_length (Nat.le_refl _), List.take_length]
        rw [e1, e2]

theorem skip_none (p : Nat → Bool) (off : Nat) (cs : List (Nat × Nat)) (h : ∀ c ∈ cs, p c.1 = false) :
    (skip (fun w => !p w) off cs).2 = [] := by
  rw [skip_eq]
  show cs.dropWhile _ = []
  induction cs with
  | nil => rfl
  | cons c cs ih =>
    rw [List.dropWhile_cons, if_pos (by simp [h c (by simp)])]
    exact ih (fun x hx => h x (by simp [hx]))

theorem takeWhile_pre {α : Type} (q : α → Bool) : ∀ (a l : List α), (∀ x ∈ a, q x = true) → (∀ x xs, l = x :: xs → q x = false) →
    (a ++ l).takeWhile q = a ∧ (a ++ l).dropWhile q = l := by
  intro a l h h'
  induction a with
  | nil =>
    cases l with
    | nil => simp
    | cons x xs =>
      have := h' x xs rfl
      simp [List.takeWhile_cons, List.dropWhile_cons, this]
  | cons y ys ih =>
    have hy := h y (by simp)
    obtain ⟨h1, h2⟩ := ih (fun x hx => h x (by simp [hx]))
    rw [List.cons_append, List.takeWhile_cons, List.dropWhile_cons, if_pos hy, if_pos hy, h1, h2]
    exact ⟨rfl, rfl⟩

theorem skip_some (p : Nat → Bool) (off : Nat) (a : List (Nat × Nat)) (c : Nat × Nat) (r b : List (Nat × Nat))
    (ha : ∀ x ∈ a, p x.1 = false) (hr : ∀ x ∈ c :: r, p x.1 = true) (hb : ∀ x xs, b = x :: xs → p x.1 = false) :
    skip (fun w => !p w) off (a ++ (c :: r) ++ b) = (off + width a, c :: (r ++ b)) ∧
    skip p (off + width a + c.2) (r ++ b) = (off + width a + width (c :: r), b) := by
  have h1 := takeWhile_pre (fun x : Nat × Nat => !p x.1) a (c :: (r ++ b)) (by intro x hx; simp [ha x hx])
    (by intro x xs e; injection e with e _; subst e; simp [hr c (by simp)])
  have h2 := takeWhile_pre (fun x : Nat × Nat => p x.1) r b (fun x hx => hr x (by simp [hx])) hb
  rw [skip_eq, skip_eq, List.append_assoc, List.cons_append, h1.1, h1.2, h2.1, h2.2]
  refine ⟨rfl, ?_⟩
  simp [width, Nat.add_assoc]

/-- The tokens of the whitespace and letter tokenizers: the maximal runs. -/
theorem nextRun_runs (p : Nat → Bool) (text : List Byte) (cs : List (Nat × Nat)) (f : Nat) (hf : cs.length < f) :
    ∃ spans, Runs (fun c : Nat × Nat => p c.1) cs spans ∧
      drain (fun s => .ok (nextRun p s)) f ⟨text, 0, cs⟩ =
        .ok (spans.map fun s => tkSetTs text (width (cs.take s.1)) (width (cs.take s.1) + width (between cs s.1 s.2)) 1) := by
  obtain ⟨spans, ⟨h1, h2⟩, h3⟩ := drain_runs p text (fun s => .ok (nextRun p s))
    (fun pre run => tkSetTs text (width pre) (width pre + width run) 1) (fun _ => True)
    (by
      intro off cs h
      unfold nextRun
      dsimp only
      rw [skip_none p off cs h])
    (by
      intro done a c r b _ ha hr hb
      obtain ⟨e1, e2⟩ := skip_some p (width done) a c r b ha hr hb
      unfold nextRun
      dsimp only
      rw [e1]
      dsimp only
      rw [e2]
      simp only [width_append])
    f [] cs hf (by simp) (by simp)
  exact ⟨spans, ⟨h1, by simpa using h2⟩, by simpa [width] using h3⟩

theorem width_byteChars (s : List Byte) : width (byteChars s) = s.length := by
  induction s with
  | nil => rfl
  | cons b s ih =>
    simp only [width, byteChars, List.map_cons, List.sum_cons, List.length_cons] at ih ⊢
    omega

theorem run_byteChars (q : Byte → Bool) (text : List Byte) (i j : Nat) :
    Run (fun c : Nat × Nat => ofByte q c.1) (byteChars text) i j ↔ Run q text i j := by
  have key : ∀ b : Byte, ofByte q b.toNat = q b := by intro b; simp [ofByte]
  have get : ∀ (k : Nat) c, (byteChars text)[k]? = some c ↔ ∃ b, text[k]? = some b ∧ c = (b.toNat, 1) := by
    intro k c
    unfold byteChars
    rw [List.getElem?_map, Option.map_eq_some_iff]
    constructor
    · rintro ⟨b, h1, h2⟩; exact ⟨b, h1, h2.symm⟩
    · rintro ⟨b, h1, h2⟩; exact ⟨b, h1, h2.symm⟩
  have hlen : (byteChars text).length = text.length := by simp [byteChars]
  constructor
  · rintro ⟨h1, h2, h3, h4, h5⟩
    refine ⟨h1, by omega, ?_, ?_, ?_⟩
    · intro k hk1 hk2
      obtain ⟨c, hc, hp⟩ := h3 k hk1 hk2
      obtain ⟨b, hb, rfl⟩ := (get k c).1 hc
      exact ⟨b, hb, by rw [← key]; exact hp⟩
    · intro b h0 hb
      have := h4 (b.toNat, 1) h0 ((get _ _).2 ⟨b, hb, rfl⟩)
      rwa [key] at this
    · intro b hb
      have := h5 (b.toNat, 1) ((get _ _).2 ⟨b, hb, rfl⟩)
      rwa [key] at this
  · rintro ⟨h1, h2, h3, h4, h5⟩
    refine ⟨h1, by omega, ?_, ?_, ?_⟩
    · intro k hk1 hk2
      obtain ⟨b, hb, hp⟩ := h3 k hk1 hk2
      exact ⟨_, (get k _).2 ⟨b, hb, rfl⟩, by dsimp only; rw [key]; exact hp⟩
    · intro c h0 hc
      obtain ⟨b, hb, rfl⟩ := (get _ _).1 hc
      dsimp only
      rw [key]
      exact h4 b h0 hb
    · intro c hc
      obtain ⟨b, hb, rfl⟩ := (get _ _).1 hc
      dsimp only
      rw [key]
      exact h5 b hb

theorem tkSet_eq (text : List Byte) (s e : Nat) (k : Int) : tkSet text s e k = ⟨text.take 254, s, e, k⟩ := by
  unfold tkSet
  congr 1
  split
  · rfl
  · rw [List.take_length, List.take_of_length_le (by omega)]

/-- Single-byte tokenizers. -/
theorem byte_runs (q : Byte → Bool) (text : List Byte) : ∃ spans, Runs q text spans ∧
    drain (fun s => .ok (nextRun (ofByte q) s)) (text.length + 1) ⟨text, 0, byteChars text⟩ =
      .ok (spans.map fun s => ⟨(between text s.1 s.2).take 254, s.1, s.2, 1⟩) := by
  obtain ⟨spans, ⟨h1, h2⟩, h3⟩ := nextRun_runs (ofByte q) text (byteChars text) (text.length + 1) (by simp [byteChars])
  refine ⟨spans, ⟨h1, fun i j => (h2 i j).trans (run_byteChars q text i j)⟩, ?_⟩
  rw [h3]
  congr 1
  apply List.map_congr_left
  intro s hs
  have hr := (h2 s.1 s.2).1 hs
  have hl : (byteChars text).length = text.length := by simp [byteChars]
  have hlt := hr.some
  have hle := hr.fits
  have w1 : width ((byteChars text).take s.1) = s.1 := by
    unfold byteChars
    rw [← List.map_take]
    have := width_byteChars (text.take s.1)
    unfold byteChars at this
    rw [this, List.length_take]; omega
  have w2 : width (between (byteChars text) s.1 s.2) = s.2 - s.1 := by
    unfold between byteChars
    rw [← List.map_drop, ← List.map_take]
    have := width_byteChars ((text.drop s.1).take (s.2 - s.1))
    unfold byteChars at this
    rw [this, List.length_take, List.length_drop]; omega
  rw [w1, w2, show s.1 + (s.2 - s.1) = s.2 by omega]
  unfold tkSetTs
  rw [tkSet_eq]
  rfl

/-! ### Multi-byte texts -/

/-- A character as it is written: not zero, and mbrtowc reads back from its bytes, whatever follows, the character and
their number. -/
structure Written (L : MbLoc) (c : Nat × List Byte) : Prop where
  nonzero : c.1 ≠ 0
  some : c.2 ≠ []
  read : ∀ rest, L.decode (c.2 ++ rest) = .some (c.1, c.2.length)

/-- The bytes of characters. -/
def bytesOf (chs : List (Nat × List Byte)) : List Byte := (chs.map (·.2)).flatten

theorem bytesOf_append (a b : List (Nat × List Byte)) : bytesOf (a ++ b) = bytesOf a ++ bytesOf b := by
  simp [bytesOf]

theorem mbNextChar_written (L : MbLoc) (c : Nat × List Byte) (h : Written L c) (rest : List Byte) :
    mbNextChar L (c.2 ++ rest) = (c.1, c.2.length) := by
  have hr := h.read rest
  cases hc : c.2 with
  | nil => exact absurd hc h.some
  | cons b bs =>
    rw [hc] at hr
    simp only [mbNextChar, List.cons_append] at hr ⊢
    rw [hr]

theorem mbCharsAux_written (L : MbLoc) : ∀ (chs : List (Nat × List Byte)) (f : Nat), (∀ c ∈ chs, Written L c) →
    (bytesOf chs).length ≤ f → mbCharsAux L f (bytesOf chs) = chs.map fun c => (c.1, c.2.length) := by
  intro chs
  induction chs with
  | nil =>
    intro f _ _
    cases f <;> rfl
  | cons c chs ih =>
    intro f h hf
    have hc := h c (by simp)
    have e : bytesOf (c :: chs) = c.2 ++ bytesOf chs := by simp [bytesOf]
    rw [e, List.length_append] at hf
    have := List.length_pos_iff.2 hc.some
    cases f with
    | zero => omega
    | succ f =>
      rw [e]
      simp only [mbCharsAux]
      rw [mbNextChar_written L c hc, if_neg hc.nonzero]
      dsimp only
      rw [List.drop_append_of_le_length (Nat.le_refl _), List.drop_length, List.nil_append,
        ih f (fun x hx => h x (by simp [hx])) (by omega)]
      rfl

theorem mbChars_written (L : MbLoc) (chs : List (Nat × List Byte)) (h : ∀ c ∈ chs, Written L c) :
    mbChars L (bytesOf chs) = chs.map fun c => (c.1, c.2.length) :=
  mbCharsAux_written L chs _ h (Nat.le_refl _)

theorem run_map {α β : Type} (g : α → β) (p : β → Bool) (l : List α) (i j : Nat) :
    Run p (l.map g) i j ↔ Run (fun a => p (g a)) l i j := by
  have get : ∀ (k : Nat) c, (l.map g)[k]? = some c ↔ ∃ b, l[k]? = some b ∧ g b = c := by
    intro k c
    rw [List.getElem?_map, Option.map_eq_some_iff]
  constructor
  · rintro ⟨h1, h2, h3, h4, h5⟩
    refine ⟨h1, by simpa using h2, ?_, ?_, ?_⟩
    · intro k hk1 hk2
      obtain ⟨c, hc, hp⟩ := h3 k hk1 hk2
      obtain ⟨b, hb, rfl⟩ := (get k c).1 hc
      exact ⟨b, hb, hp⟩
    · intro b h0 hb
      exact h4 (g b) h0 ((get _ _).2 ⟨b, hb, rfl⟩)
    · intro b hb
      exact h5 (g b) ((get _ _).2 ⟨b, hb, rfl⟩)
  · rintro ⟨h1, h2, h3, h4, h5⟩
    refine ⟨h1, by simpa using h2, ?_, ?_, ?_⟩
    · intro k hk1 hk2
      obtain ⟨b, hb, hp⟩ := h3 k hk1 hk2
      exact ⟨_, (get k _).2 ⟨b, hb, rfl⟩, hp⟩
    · intro c h0 hc
      obtain ⟨b, hb, rfl⟩ := (get _ _).1 hc
      exact h4 b h0 hb
    · intro c hc
      obtain ⟨b, hb, rfl⟩ := (get _ _).1 hc
      exact h5 b hb

theorem width_written (chs : List (Nat × List Byte)) : width (chs.map fun c => (c.1, c.2.length)) = (bytesOf chs).length := by
  induction chs with
  | nil => rfl
  | cons c chs ih =>
    have e : bytesOf (c :: chs) = c.2 ++ bytesOf chs := by simp [bytesOf]
    rw [e, List.length_append, ← ih]
    simp [width]

theorem take_between {α : Type} (l : List α) (i j : Nat) (h : i ≤ j) : l.take i ++ between l i j = l.take j := by
  unfold between
  rw [← List.take_append_drop i (l.take j), List.take_take, Nat.min_eq_left h, List.drop_take]

theorem slice_bytesOf (chs : List (Nat × List Byte)) (i j : Nat) (h : i ≤ j) :
    slice (bytesOf chs) (bytesOf (chs.take i)).length (bytesOf (chs.take j)).length = bytesOf (between chs i j) := by
  have e : bytesOf chs = bytesOf (chs.take i) ++ (bytesOf (between chs i j) ++ bytesOf (chs.drop j)) := by
    rw [← bytesOf_append, ← bytesOf_append, ← List.append_assoc, take_between _ _ _ h, List.take_append_drop]
  have e2 : (bytesOf (chs.take j)).length = (bytesOf (chs.take i)).length + (bytesOf (between chs i j)).length := by
    rw [← take_between _ _ _ h, bytesOf_append, List.length_append]
  unfold slice
  rw [e2, Nat.add_sub_cancel_left]
  conv => lhs; rw [e]
  rw [List.drop_append_of_le_length (Nat.le_refl _), List.drop_length, List.nil_append,
    List.take_append_of_le_length (Nat.le_refl _), List.take_length]

theorem mapPair_take (chs : List (Nat × List Byte)) (i : Nat) :
    width ((chs.map fun c => (c.1, c.2.length)).take i) = (bytesOf (chs.take i)).length := by
  rw [← List.map_take, width_written]

theorem mapPair_between (chs : List (Nat × List Byte)) (i j : Nat) :
    between (chs.map fun c => (c.1, c.2.length)) i j = (between chs i j).map fun c => (c.1, c.2.length) := by
  simp [between, List.map_take, List.map_drop]

theorem length_le_bytesOf (L : MbLoc) (chs : List (Nat × List Byte)) (h : ∀ c ∈ chs, Written L c) : chs.length ≤ (bytesOf chs).length := by
  induction chs with
  | nil => simp
  | cons c chs ih =>
    have e : bytesOf (c :: chs) = c.2 ++ bytesOf chs := by simp [bytesOf]
    have := List.length_pos_iff.2 (h c (by simp)).some
    have := ih (fun x hx => h x (by simp [hx]))
    rw [e, List.length_append, List.length_cons]
    omega

theorem mb_runs (L : MbLoc) (p : Nat → Bool) (chs : List (Nat × List Byte)) (h : ∀ c ∈ chs, Written L c) :
    ∃ spans, Runs (fun c : Nat × List Byte => p c.1) chs spans ∧
    drain (fun s => .ok (nextRun p s)) ((bytesOf chs).length + 1) ⟨bytesOf chs, 0, mbChars L (bytesOf chs)⟩ =
      .ok (spans.map fun s => ⟨(bytesOf (between chs s.1 s.2)).take 254, (bytesOf (chs.take s.1)).length, (bytesOf (chs.take s.2)).length, 1⟩) := by
  have hl := length_le_bytesOf L chs h
  rw [mbChars_written L chs h]
  obtain ⟨spans, ⟨h1, h2⟩, h3⟩ := nextRun_runs p (bytesOf chs) (chs.map fun c => (c.1, c.2.length)) ((bytesOf chs).length + 1)
    (by rw [List.length_map]; omega)
  refine ⟨spans, ⟨h1, fun i j => (h2 i j).trans (run_map _ _ _ i j)⟩, ?_⟩
  rw [h3]
  congr 1
  apply List.map_congr_left
  intro s hs
  have hr := (h2 s.1 s.2).1 hs
  have hle : s.1 ≤ s.2 := Nat.le_of_lt hr.some
  rw [mapPair_take, mapPair_between, width_written, ← List.length_append, ← bytesOf_append, take_between _ _ _ hle]
  unfold tkSetTs
  rw [tkSet_eq, slice_bytesOf _ _ _ hle]

/-- wcstombs writes as many characters as fit. -/
theorem wcstombs_fits (L : MbLoc) (n : Nat) (enc : Nat → List Byte) : ∀ (ws : List Nat) (out : List Byte),
    (∀ w ∈ ws, L.encode w = some (enc w)) → out.length ≤ n →
    ∃ k, k ≤ ws.length ∧ wcstombs L n ws out = some (out ++ ((ws.map enc).take k).flatten) ∧
      (out ++ ((ws.map enc).take k).flatten).length ≤ n ∧
      (k = ws.length ∨ n < (out ++ ((ws.map enc).take (k + 1)).flatten).length) := by
  intro ws
  induction ws with
  | nil => intro out _ ho; exact ⟨0, by simp, by simp [wcstombs], by simpa using ho, .inl rfl⟩
  | cons w ws ih =>
    intro out h ho
    simp only [wcstombs]
    rw [h w (by simp)]
    dsimp only
    by_cases hfit : out.length + (enc w).length ≤ n
    · rw [if_pos hfit]
      obtain ⟨k, h1, h2, h3, h4⟩ := ih (out ++ enc w) (fun x hx => h x (by simp [hx])) (by simpa using hfit)
      refine ⟨k + 1, by simpa using h1, ?_, ?_, ?_⟩
      · rw [h2]; simp
      · simpa using h3
      · rcases h4 with h4 | h4
        · left; simp [h4]
        · right; simpa using h4
    · rw [if_neg hfit]
      refine ⟨0, by simp, by simp, by simpa using ho, ?_⟩
      right
      simp only [List.map_cons, Nat.zero_add, List.take_succ_cons, List.take_zero, List.flatten_cons, List.flatten_nil, List.append_nil,
        List.length_append]
      omega

theorem flatten_length_ge (ps : List (List Byte)) (h : ∀ x ∈ ps, x ≠ []) : ps.length ≤ ps.flatten.length := by
  induction ps with
  | nil => simp
  | cons x xs ih =>
    have := List.length_pos_iff.2 (h x (by simp))
    have := ih (fun y hy => h y (by simp [hy]))
    simp only [List.flatten_cons, List.length_append, List.length_cons]
    omega

/-- Taking at most 255 characters first makes no difference to what fits in 254 bytes. -/
theorem fits_take (ps : List (List Byte)) (h : ∀ x ∈ ps, x ≠ []) (out : List Byte) (hf : Fits 254 (ps.take 255) out) : Fits 254 ps out := by
  obtain ⟨k, h1, h2, h3, h4⟩ := hf
  have hlen : (ps.take 255).length = min 255 ps.length := List.length_take
  have hk : ((ps.take 255).take k).length ≤ 254 := by
    have := flatten_length_ge ((ps.take 255).take k) (fun x hx => h x (List.mem_of_mem_take (List.mem_of_mem_take hx)))
    rw [← h2] at this
    omega
  rw [List.length_take] at hk
  have hk' : k ≤ 254 := by omega
  rw [List.take_take, Nat.min_eq_left (by omega)] at h2
  rw [List.take_take, Nat.min_eq_left (by omega)] at h4
  refine ⟨k, by omega, h2, h3, ?_⟩
  rcases h4 with h4 | h4
  · left; omega
  · exact .inr h4

theorem lowerRun_eq (L : MbLoc) (p : Nat → Bool) (c : Nat × Nat) (r b : List (Nat × Nat)) (hr : ∀ x ∈ c :: r, p x.1 = true)
    (hb : ∀ x xs, b = x :: xs → p x.1 = false) : lowerRun L p c.1 (r ++ b) = ((c :: r).map fun x => L.toLower x.1).take 255 := by
  unfold lowerRun
  rw [(takeWhile_pre (fun x : Nat × Nat => p x.1) r b (fun x hx => hr x (by simp [hx])) hb).1]
  simp [List.map_take]

/-- What w_tk_set makes of a run. -/
def lowToken (L : MbLoc) (pre run : List (Nat × Nat)) : Token :=
  match wcstombs L 254 ((run.map fun x => L.toLower x.1).take 255) [] with
  | none => ⟨[], 0, 0, 0⟩
  | some bs => ⟨bs, width pre, width pre + width run, 1⟩

theorem mb_runs_lc (L : MbLoc) (p : Nat → Bool) (low : Nat → List Byte) (chs : List (Nat × List Byte)) (h : ∀ c ∈ chs, Written L c)
    (hlow : ∀ c ∈ chs, p c.1 = true → L.encode (L.toLower c.1) = some (low c.1) ∧ low c.1 ≠ []) :
    ∃ spans toks, Runs (fun c : Nat × List Byte => p c.1) chs spans ∧
    drain (nextRunLc L p) ((bytesOf chs).length + 1) ⟨bytesOf chs, 0, mbChars L (bytesOf chs)⟩ = .ok toks ∧
    toks.length = spans.length ∧ ∀ s tk, (s, tk) ∈ spans.zip toks →
      Fits 254 ((between chs s.1 s.2).map fun c => low c.1) tk.text ∧ tk.start = (bytesOf (chs.take s.1)).length ∧
      tk.stop = (bytesOf (chs.take s.2)).length ∧ tk.posInc = 1 := by
  have hl := length_le_bytesOf L chs h
  rw [mbChars_written L chs h]
  have henc : ∀ run : List (Nat × Nat), (∀ x ∈ run, ∃ c ∈ chs, x.1 = c.1) → (∀ x ∈ run, p x.1 = true) → ∃ bs, wcstombs L 254 ((run.map fun x => L.toLower x.1).take 255) [] = some bs ∧
      Fits 254 (run.map fun x => low x.1) bs := by
    intro run hin hrun
    replace hlow : ∀ x ∈ run, L.encode (L.toLower x.1) = some (low x.1) ∧ low x.1 ≠ [] := by
      intro x hx
      obtain ⟨c, hc, e⟩ := hin x hx
      have hp := hrun x hx
      rw [e] at hp ⊢
      exact hlow c hc hp
    obtain ⟨k, h1, h2, h3, h4⟩ := wcstombs_fits L 254 (fun w => (L.encode w).getD []) ((run.map fun x => L.toLower x.1).take 255) []
      (by
        intro w hw
        obtain ⟨x, hx, rfl⟩ := List.mem_map.1 (List.mem_of_mem_take hw)
        rw [(hlow x hx).1]
        rfl) (by simp)
    have emap : ((run.map fun x => L.toLower x.1).take 255).map (fun w => (L.encode w).getD []) = (run.map fun x => low x.1).take 255 := by
      rw [List.map_take, List.map_map]
      congr 1
      apply List.map_congr_left
      intro x hx
      simp [(hlow x hx).1]
    rw [emap] at h2 h3 h4
    simp only [List.nil_append] at h2 h3 h4
    refine ⟨_, h2, ?_⟩
    apply fits_take
    · intro x hx
      obtain ⟨y, hy, rfl⟩ := List.mem_map.1 hx
      exact (hlow y hy).2
    · refine ⟨k, by simpa using h1, rfl, h3, ?_⟩
      rcases h4 with h4 | h4
      · left; simpa using h4
      · exact .inr h4
  obtain ⟨spans, ⟨h1, h2⟩, h3⟩ := drain_runs p (bytesOf chs) (nextRunLc L p) (lowToken L) (fun w => ∃ c ∈ chs, w = c.1)
    (by
      intro off cs h
      unfold nextRunLc
      dsimp only
      rw [skip_none p off cs h])
    (by
      intro done a c r b hQ ha hr hb
      obtain ⟨e1, e2⟩ := skip_some p (width done) a c r b ha hr hb
      obtain ⟨bs, h1, _⟩ := henc (c :: r) hQ hr
      unfold nextRunLc
      dsimp only
      rw [e1]
      dsimp only
      rw [e2, lowerRun_eq L p c r b hr hb]
      unfold wTkSet lowToken
      rw [h1]
      simp only [width_append, Res.ok_bind]
      rfl)
    ((bytesOf chs).length + 1) [] (chs.map fun c => (c.1, c.2.length)) (by rw [List.length_map]; omega)
    (by
      intro x hx
      obtain ⟨c, hc, rfl⟩ := List.mem_map.1 hx
      exact ⟨c, hc, rfl⟩) (by simp)
  simp only [List.nil_append, List.length_nil, Nat.zero_le, true_and] at h2 h3
  refine ⟨spans, _, ⟨h1, fun i j => (h2 i j).trans (run_map _ _ _ i j)⟩, h3, by simp, ?_⟩
  intro s tk hmem
  rw [List.zip_map_right, List.mem_map] at hmem
  obtain ⟨⟨s', t'⟩, hz, he⟩ := hmem
  have heq : s' = t' ∧ s' ∈ spans := by
    have : ∀ l : List (Nat × Nat), ∀ x y, (x, y) ∈ l.zip l → x = y ∧ x ∈ l := by
      intro l
      induction l with
      | nil => intro x y h; cases h
      | cons z l ih =>
        intro x y h
        rw [List.zip_cons_cons] at h
        rcases List.mem_cons.1 h with h | h
        · injection h with e1 e2; subst e1; subst e2; exact ⟨rfl, by simp⟩
        · obtain ⟨e, m⟩ := ih x y h; exact ⟨e, by simp [m]⟩
    exact this _ _ _ hz
  obtain ⟨rfl, hmem⟩ := heq
  simp only [Prod.map, id, Prod.mk.injEq] at he
  obtain ⟨rfl, rfl⟩ := he
  have hr := (h2 s'.1 s'.2).1 hmem
  have hle : s'.1 ≤ s'.2 := Nat.le_of_lt hr.some
  obtain ⟨bs, h5, h6⟩ := henc (between (chs.map fun c => (c.1, c.2.length)) s'.1 s'.2) (by
    intro x hx
    obtain ⟨c, hc, rfl⟩ := List.mem_map.1 (List.mem_of_mem_drop (List.mem_of_mem_take hx))
    exact ⟨c, hc, rfl⟩) (by
    intro x hx
    unfold between at hx
    obtain ⟨k, hk⟩ := List.getElem?_of_mem hx
    rw [List.getElem?_take] at hk
    split at hk
    · rename_i hlt
      rw [List.getElem?_drop] at hk
      obtain ⟨c, hc, hp⟩ := hr.all (s'.1 + k) (by omega) (by omega)
      rw [hc] at hk
      injection hk with hk
      subst hk
      exact hp
    · cases hk)
  unfold lowToken
  rw [h5]
  dsimp only
  rw [mapPair_between] at h6 ⊢
  refine ⟨?_, ?_, ?_, rfl⟩
  · simpa [Function.comp_def] using h6
  · rw [mapPair_take]
  · rw [mapPair_take, width_written, ← take_between _ _ _ hle, bytesOf_append, List.length_append]
    simp

end Ferret.Ana
