import Verif.Spec.FindLive
import Verif.Props.C16

/-! The search for the segments file while commits are made. -/

namespace Ferret.Sis
open Ferret Ferret.Spec Ferret.Names

theorem Stage.low_le (st : Stage) : st.low ≤ st.newest := by cases st <;> simp [Stage.low, Stage.newest]
theorem Stage.le_top (st : Stage) : st.newest ≤ st.top := by cases st <;> simp [Stage.top, Stage.newest]

/-- What reading may give, stage by stage. -/
structure ReadsAs {α : Type} (run : Disk → Int → Res α) (val : Nat → α) (d : Disk) (st : Stage) : Prop where
  list : currentGeneration (-1) d.names = .ok (st.top : Int)
  gone : ∀ g n, g < st.low → segfn g = .ok n → d.get n = none
  there : ∀ n, segfn st.newest = .ok n → (d.get n).isSome = true
  cur : run d st.newest = .ok (val st.newest)
  past : ∀ g : Nat, g < st.newest → run d g = .ok (val g) ∨ ∃ e, run d g = .raise e ∧ handled e = true
  next : ∀ g : Nat, st = .writing g → ∃ e, run d ((g + 1 : Nat) : Int) = .raise e ∧ handled e = true

/-- Stages follow one another. -/
def later (st st' : Stage) : Prop := st.rank ≤ st'.rank

/-- What follows for what a reader sees. -/
theorem later_newest {st st' : Stage} (h1 : 1 ≤ st.newest) (h1' : 1 ≤ st'.newest) (h : st.rank ≤ st'.rank) : st.newest ≤ st'.newest ∧ st.top ≤ st'.top := by
  cases st <;> cases st' <;> simp only [Stage.rank, Stage.newest, Stage.top] at * <;> omega

theorem later_past {st st' : Stage} (h1 : 1 ≤ st.newest) (h1' : 1 ≤ st'.newest) (h : st.rank ≤ st'.rank) : st.low ≤ st'.low := by
  cases st <;> cases st' <;> simp only [Stage.rank, Stage.newest, Stage.low] at * <;> omega

/-- The variables between rounds. -/
structure Between (st : Stage) (s : Find) : Prop where
  method : s.method = 0
  ahead : s.ahead = 0
  last : (s.lastGen = -1 ∧ s.retry = false) ∨ (s.lastGen ≤ st.newest ∧ 0 ≤ s.lastGen ∧ (s.retry = true → s.lastGen < st.newest))

/-- How far the search has come. -/
def Find.far (s : Find) : Int := 2 * s.lastGen + if s.retry then 1 else 0

variable {α : Type} {run : Disk → Int → Res α} {val : Nat → α} {look : Nat → Disk} {st : Nat → Stage}

/-- A writer and what readings give. -/
structure Lawful (run : Disk → Int → Res α) (val : Nat → α) (look : Nat → Disk) (st : Nat → Stage) : Prop where
  reads : ∀ t, ReadsAs run val (look t) (st t)
  one : ∀ t, 1 ≤ (st t).newest
  mono : ∀ t t', t ≤ t' → (st t).rank ≤ (st t').rank
  fits : ∀ t, (st t).top < 2 ^ 63

theorem Lawful.newest_mono (h : Lawful run val look st) {t t' : Nat} (ht : t ≤ t') : (st t).newest ≤ (st t').newest :=
  (later_newest (h.one t) (h.one t') (h.mono t t' ht)).1

theorem Lawful.top_mono (h : Lawful run val look st) {t t' : Nat} (ht : t ≤ t') : (st t).top ≤ (st t').top :=
  (later_newest (h.one t) (h.one t') (h.mono t t' ht)).2

theorem genLive_next (h : Lawful run val look st) (t : Nat) (s : Find) (hb : Between (st t) s) :
    ∃ r, genLive (look t) (look (t + 1)) s = .ok ⟨(st t).top, (st t).top, r, 0, 0⟩ ∧
      (r = true → s.lastGen = (st t).top ∧ s.retry = false) ∧ (r = false → s.lastGen < (st t).top) := by
  have hm := (h.reads t).list
  have ht := Stage.le_top (st t)
  have h1 : ¬ (((st t).top : Int) = -1) := by omega
  obtain ⟨gen, last, retry, method, ahead⟩ := s
  obtain ⟨rfl, rfl, hl⟩ := hb
  simp only at hl
  by_cases e : last = (st t).top
  · have hr : retry = false := by
      cases hr : retry with
      | false => rfl
      | true =>
        rcases hl with hl | hl
        · simp [hr] at hl
        · have := hl.2.2 hr; omega
    subst hr
    refine ⟨true, ?_, fun _ => ⟨e, rfl⟩, fun hf => absurd hf (by decide)⟩
    simp [genLive, hm, h1, e]
  · refine ⟨false, ?_, fun hf => absurd hf (by decide), fun _ => ?_⟩
    · simp [genLive, hm, h1, e]
    · show last < _
      rcases hl with hl | hl <;> omega

/-- A round: it ends with a commit that was the newest at some moment since `t`, or the search has come further. -/
theorem roundLive_next (h : Lawful run val look st) (t : Nat) (s : Find) (hb : Between (st t) s) :
    (∃ g s', roundLive run look t s = .ok (some (val g), s') ∧ (st t).newest ≤ g ∧ g ≤ (st (t + 4)).newest) ∨
    (∃ s', roundLive run look t s = .ok (none, s') ∧ Between (st (t + 5)) s' ∧ s.far < s'.far ∧ ((st t).newest : Int) ≤ s'.lastGen) := by
  obtain ⟨r, hg, hr1, hr2⟩ := genLive_next h t s hb
  have hnt := Stage.le_top (st t)
  have hone := h.one t
  have hfit := h.fits t
  have m2 := h.newest_mono (show t ≤ t + 2 by omega)
  have m23 := h.newest_mono (show t + 2 ≤ t + 3 by omega)
  have m34 := h.newest_mono (show t + 3 ≤ t + 4 by omega)
  have m45 := h.newest_mono (show t + 4 ≤ t + 5 by omega)
  have p2 := h.top_mono (show t ≤ t + 2 by omega)
  generalize hT : (st t).top = T at *
  have hround : roundLive run look t s =
      tryLive run (look (t + 2)) (look (t + 3)) (look (t + 4)) ⟨T, T, r, 0, 0⟩ >>= fun x => .ok (x, ⟨T, T, r, 0, 0⟩) := by
    simp [roundLive, hg]
  have hfar : s.far < Find.far ⟨T, T, r, 0, 0⟩ := by
    cases r with
    | true =>
      have := hr1 rfl
      simp only [Find.far, this.1, this.2, Bool.false_eq_true, if_false, if_true]
      omega
    | false =>
      have := hr2 rfl
      simp only [Find.far, Bool.false_eq_true, if_false]
      split <;> omega
  -- the search goes on
  have goOn : tryLive run (look (t + 2)) (look (t + 3)) (look (t + 4)) ⟨T, T, r, 0, 0⟩ = .ok none →
      T ≤ (st (t + 5)).newest → (r = true → T < (st (t + 5)).newest) →
      ∃ s', roundLive run look t s = .ok (none, s') ∧ Between (st (t + 5)) s' ∧ s.far < s'.far ∧ ((st t).newest : Int) ≤ s'.lastGen := by
    intro ht h1 h2
    refine ⟨⟨T, T, r, 0, 0⟩, by rw [hround, ht]; rfl, ⟨rfl, rfl, Or.inr ⟨?_, ?_, ?_⟩⟩, hfar, ?_⟩
    · show (T : Int) ≤ _; omega
    · show (0 : Int) ≤ T; omega
    · intro hr
      have := h2 hr
      show (T : Int) < _; omega
    · show _ ≤ (T : Int); omega
  have hprev : ∃ prev, segfn (toU 8 ((T : Int) - 1)) = .ok prev ∧ segfn (T - 1) = .ok prev := by
    obtain ⟨n, -, hn, -⟩ := segfn_ok (T - 1) (by omega)
    refine ⟨n, ?_, hn⟩
    rw [show ((T : Int) - 1) = ((T - 1 : Nat) : Int) by omega, Props.toU8 _ (by omega)]
    exact hn
  obtain ⟨prev, hp1, hp2⟩ := hprev
  by_cases hcase : T ≤ (st (t + 2)).newest
  · -- the commit was whole when it was read
    have hres : run (look (t + 2)) T = .ok (val T) ∨ (T < (st (t + 2)).newest ∧ ∃ e, run (look (t + 2)) T = .raise e ∧ handled e = true) := by
      by_cases e : T = (st (t + 2)).newest
      · left; rw [e]; exact (h.reads (t + 2)).cur
      · rcases (h.reads (t + 2)).past T (by omega) with h' | h'
        · exact Or.inl h'
        · exact Or.inr ⟨by omega, h'⟩
    rcases hres with hres | ⟨hlt, e, hres, he⟩
    · left
      refine ⟨T, ⟨T, T, r, 0, 0⟩, ?_, by omega, by omega⟩
      rw [hround]
      simp only [tryLive, hres, Res.ok_bind]
    · right
      apply goOn ?_ (by omega) (fun _ => by omega)
      have hgone : (look (t + 3)).get prev = none := by
        apply (h.reads (t + 3)).gone (T - 1) prev ?_ hp2
        have := h.mono (t + 2) (t + 3) (by omega)
        have l := later_past (h.one (t + 2)) (h.one (t + 3)) this
        have : (st (t + 2)).newest - 1 ≤ (st (t + 2)).low := by cases st (t + 2) <;> simp [Stage.low, Stage.newest]
        omega
      cases r <;> simp [tryLive, hres, he, hp1, hgone]
  · -- it was being written
    have hw : st (t + 2) = .writing (T - 1) ∧ (st (t + 2)).newest + 1 = T := by
      cases hst : st (t + 2) with
      | idle g => rw [hst] at p2 hcase; simp [Stage.top, Stage.newest] at p2 hcase; omega
      | wrote g => rw [hst] at p2 hcase; simp [Stage.top, Stage.newest] at p2 hcase; omega
      | writing g =>
        rw [hst] at p2 hcase
        simp [Stage.top, Stage.newest] at p2 hcase
        refine ⟨by congr 1; omega, ?_⟩
        show g + 1 = T
        omega
    obtain ⟨e, hres, he⟩ := (h.reads (t + 2)).next _ hw.1
    rw [show T - 1 + 1 = T by omega] at hres
    have hr : r = false := by
      cases r with
      | false => rfl
      | true =>
        obtain ⟨h1, h2⟩ := hr1 rfl
        rcases hb.last with hl | hl
        · omega
        · omega
    subst hr
    have hT2 : (T : Int) > 1 := by have := h.one (t + 2); omega
    cases hex : ((look (t + 3)).get prev).isSome with
    | false =>
      right
      apply goOn
      · simp [tryLive, hres, he, hT2, hp1, hex]
      · apply Classical.byContradiction
        intro hn
        have e3 : (st (t + 3)).newest = T - 1 := by omega
        have := (h.reads (t + 3)).there prev (by rw [e3]; exact hp2)
        rw [hex] at this
        cases this
      · intro hf; cases hf
    | true =>
      have hpast : run (look (t + 4)) ((T - 1 : Nat) : Int) = .ok (val (T - 1)) ∨
          (T ≤ (st (t + 4)).newest ∧ ∃ e, run (look (t + 4)) ((T - 1 : Nat) : Int) = .raise e ∧ handled e = true) := by
        by_cases e : (st (t + 4)).newest = T - 1
        · left; rw [← e]; exact (h.reads (t + 4)).cur
        · rcases (h.reads (t + 4)).past (T - 1) (by omega) with h' | h'
          · exact Or.inl h'
          · exact Or.inr ⟨by omega, h'⟩
      have hcast : (T : Int) - 1 = ((T - 1 : Nat) : Int) := by omega
      rcases hpast with hres2 | ⟨hlt, e2, hres2, he2⟩
      · left
        refine ⟨T - 1, ⟨T, T, false, 0, 0⟩, ?_, by omega, by omega⟩
        rw [hround]
        simp only [tryLive, hres, he, hT2, hp1, hex, if_true, and_self, Res.ok_bind]
        rw [hcast, hres2]
        rfl
      · right
        apply goOn ?_ (by omega) (fun hf => by cases hf)
        simp only [tryLive, hres, he, hT2, hp1, hex, if_true, and_self, Res.ok_bind]
        rw [hcast, hres2]
        simp [he2]

/-- The search ends with a commit that was the newest at some moment, or it still goes on and commits have been made. -/
theorem findLive_next (h : Lawful run val look st) : ∀ (n t : Nat) (s : Find), Between (st t) s →
    (∃ g t', findLive run look n t s = some (.ok (val g), t') ∧ t ≤ t' ∧ (st t').newest ≤ g ∧ g ≤ (st (t' + 4)).newest) ∨
    (findLive run look n t s = none ∧ (0 < n → s.far + n ≤ 2 * (st (t + 5 * n)).newest)) := by
  intro n
  induction n with
  | zero => intro t s hb; exact Or.inr ⟨rfl, fun hn => absurd hn (by omega)⟩
  | succ n ih =>
    intro t s hb
    rcases roundLive_next h t s hb with ⟨g, s', hr, h1, h2⟩ | ⟨s', hr, h1, h2, -⟩
    · left
      exact ⟨g, t, by simp only [findLive, hr], Nat.le_refl _, h1, h2⟩
    · rcases ih (t + 5) s' h1 with ⟨g, t', hg, h3, h4, h5⟩ | ⟨hg, h3⟩
      · left
        exact ⟨g, t', by simp only [findLive, hr, hg], by omega, h4, h5⟩
      · right
        refine ⟨by simp only [findLive, hr, hg], fun _ => ?_⟩
        rw [show t + 5 * (n + 1) = t + 5 + 5 * n by omega]
        cases n with
        | zero =>
          have : s'.far ≤ 2 * (st (t + 5)).newest := by
            rcases h1.last with hl | hl
            · simp [Find.far, hl.1, hl.2]; omega
            · unfold Find.far
              split
              · have := hl.2.2 (by assumption); omega
              · omega
          simp only [Nat.mul_zero, Nat.add_zero]
          omega
        | succ n =>
          have := h3 (by omega)
          omega

theorem hasCommit_read {d : Disk} {c : SIS} {g : Nat} (hg : g < 2 ^ 63) (hc : hasCommit d c) (h1 : c.generation = g) (h2 : SisFits c) :
    sisReadI d g = .ok c := by
  obtain ⟨n, junk, e1, e2⟩ := hc
  rw [h1, Props.toU8 g hg] at e1
  exact Props.sisReadI_ok hg e1 e2 h1 h2

/-- What a reader of segments files sees of a stage. -/
theorem _root_.Ferret.Spec.Shows.reads {c : Nat → SIS} {d : Disk} {st : Stage} (h : Shows c d st) (hf : commitsFit c st) (h1 : 1 ≤ st.newest) :
    ReadsAs sisReadI c d st := by
  obtain ⟨hf1, hf2⟩ := hf
  have hnt := Stage.le_top st
  have hln := Stage.low_le st
  have absent : ∀ g n, g < st.low → segfn g = .ok n → d.get n = none := by
    intro g n hg hn
    apply Classical.byContradiction
    intro hne
    have hs : (d.get n).isSome = true := Option.isSome_iff_ne_none.mpr hne
    rw [Disk.get_isSome] at hs
    obtain ⟨n', -, e, -, -, e'⟩ := segfn_ok g (by omega)
    rw [hn] at e
    cases e
    obtain ⟨g', h1, h2, h3⟩ := h.names n hs e'
    have := segfn_inj (by omega) (by omega) hn h3
    omega
  have readAbsent : ∀ g n, g < 2 ^ 63 → segfn g = .ok n → d.get n = none → sisReadI d g = .raise .fileNotFound := by
    intro g n hg hn hd
    simp only [sisReadI, Props.toU8 g hg, hn, Res.ok_bind, openInput, hd]
    rfl
  refine ⟨?_, absent, ?_, ?_, ?_, ?_⟩
  · apply currentGeneration_max _ _ (by omega)
    · intro n hn hs
      obtain ⟨g, -, hg, e⟩ := h.names n hn hs
      exact ⟨g, hg, e⟩
    · cases st with
      | writing g =>
        obtain ⟨n, k, e1, e2, -⟩ := h.part g rfl
        have hg := (hf2 (g + 1) (by simp only [Stage.low]; omega) (Nat.le_refl _)).1
        rw [hg, Props.toU8 _ (by simp only [Stage.top] at hf1; omega)] at e1
        exact ⟨n, by rw [← Disk.get_isSome, e2]; rfl, e1⟩
      | idle g =>
        obtain ⟨n, k, e1, e2⟩ := h.whole
        have hg := (hf2 g (by simp [Stage.low]) (Nat.le_refl _)).1
        simp only [Stage.newest] at e1
        rw [hg, Props.toU8 _ (by simp only [Stage.top] at hf1; omega)] at e1
        exact ⟨n, by rw [← Disk.get_isSome, e2]; rfl, e1⟩
      | wrote g =>
        obtain ⟨n, k, e1, e2⟩ := h.whole
        have hg := (hf2 g (by simp [Stage.low]) (Nat.le_refl _)).1
        simp only [Stage.newest] at e1
        rw [hg, Props.toU8 _ (by simp only [Stage.top] at hf1; omega)] at e1
        exact ⟨n, by rw [← Disk.get_isSome, e2]; rfl, e1⟩
  · intro n hn
    obtain ⟨n', junk, e1, e2⟩ := h.whole
    rw [(hf2 _ hln hnt).1, Props.toU8 _ (by omega), hn] at e1
    cases e1
    rw [e2]; rfl
  · exact hasCommit_read (by omega) h.whole (hf2 _ hln hnt).1 (hf2 _ hln hnt).2
  · intro g hg
    obtain ⟨n, -, hn, -⟩ := segfn_ok g (by omega)
    by_cases hl : g < st.low
    · right
      exact ⟨.fileNotFound, readAbsent g n (by omega) hn (absent g n hl hn), rfl⟩
    · have hst : st = .wrote (g + 1) := by
        cases st <;> simp only [Stage.low, Stage.newest] at hl hg
        · omega
        · omega
        · congr 1; omega
      rcases h.old g n hst hn with e | e
      · right
        exact ⟨.fileNotFound, readAbsent g n (by omega) hn e, rfl⟩
      · left
        exact hasCommit_read (by omega) e (hf2 g (by omega) (by omega)).1 (hf2 g (by omega) (by omega)).2
  · intro g hst
    subst hst
    simp only [Stage.top] at hf1 hf2
    obtain ⟨n, k, e1, e2, e3, e4⟩ := h.part g rfl
    have hg := hf2 (g + 1) (by simp only [Stage.low]; omega) (Nat.le_refl _)
    have hp := (sisParse_spec _ hg.2).2.1 k e3 e4
    rw [hg.1] at hp
    rw [hg.1, Props.toU8 _ (by omega)] at e1
    refine ⟨.eof, ?_, rfl⟩
    simp only [sisReadI, Props.toU8 _ (show g + 1 < 2 ^ 63 by omega), e1, Res.ok_bind, openInput, e2, hp]
    rfl

theorem finished_zero (rs : List Round) : finished rs 0 = 0 := by
  cases rs with
  | nil => rfl
  | cons r rs => simp [finished, Round.untilWhole]

theorem finished_le (rs : List Round) : ∀ k, finished rs k ≤ rs.length := by
  induction rs with
  | nil => intro k; simp [finished]
  | cons r rs ih =>
    intro k
    simp only [finished]
    split
    · omega
    · have := ih (k - r.total)
      simp only [List.length_cons]
      omega

theorem stageAt_zero (g : Nat) (rs : List Round) : stageAt g rs 0 = .idle g := by
  cases rs with
  | nil => rfl
  | cons r rs => simp [stageAt]

theorem stageAt_newest (rs : List Round) : ∀ (g k : Nat), (stageAt g rs k).newest = g + finished rs k := by
  induction rs with
  | nil => intro g k; rfl
  | cons r rs ih =>
    intro g k
    simp only [stageAt, finished]
    have hu : r.untilWhole = r.pre.length + ((sisBytes (committed r.new)).length + 1) := rfl
    by_cases h1 : k ≤ r.pre.length
    · rw [if_pos h1, if_pos (by omega)]; rfl
    · rw [if_neg h1]
      by_cases h2 : k < r.untilWhole
      · rw [if_pos h2, if_pos h2]; rfl
      · rw [if_neg h2, if_neg h2]
        by_cases h3 : k < r.total
        · rw [if_pos h3, show k - r.total = 0 by omega, finished_zero]; rfl
        · rw [if_neg h3, ih]; omega

theorem stageAt_bounds (rs : List Round) : ∀ (g k : Nat), 3 * g ≤ (stageAt g rs k).rank ∧ (stageAt g rs k).top ≤ g + rs.length ∧ g ≤ (stageAt g rs k).low := by
  induction rs with
  | nil => intro g k; simp [stageAt, Stage.rank, Stage.top, Stage.low]
  | cons r rs ih =>
    intro g k
    simp only [stageAt, List.length_cons]
    split
    · simp only [Stage.rank, Stage.top, Stage.low]; omega
    · split
      · simp only [Stage.rank, Stage.top, Stage.low]; omega
      · split
        · simp only [Stage.rank, Stage.top, Stage.low]; omega
        · have := ih (g + 1) (k - r.total)
          omega

theorem stageAt_mono (rs : List Round) : ∀ (g k k' : Nat), k ≤ k' → (stageAt g rs k).rank ≤ (stageAt g rs k').rank := by
  induction rs with
  | nil => intro g k k' _; exact Nat.le_refl _
  | cons r rs ih =>
    intro g k k' h
    have hb := stageAt_bounds rs (g + 1) (k' - r.total)
    have hu : r.untilWhole = r.pre.length + ((sisBytes (committed r.new)).length + 1) := rfl
    have hi := ih (g + 1) (k - r.total) (k' - r.total) (by omega)
    simp only [stageAt]
    generalize stageAt (g + 1) rs (k' - r.total) = s' at *
    generalize stageAt (g + 1) rs (k - r.total) = s at *
    have r1 : (Stage.idle g).rank = 3 * g := rfl
    have r2 : (Stage.writing g).rank = 3 * g + 1 := rfl
    have r3 : (Stage.wrote (g + 1)).rank = 3 * (g + 1) - 1 := rfl
    (repeat' split) <;> omega

/-- Events on files that are no segments files. -/
def noSeg (evs : List DiskEv) : Prop := ∀ ev ∈ evs, isSeg ev.name = false

theorem segfn_isSeg {g : Nat} {n : Name} (hg : g < 2 ^ 64) (h : segfn g = .ok n) : isSeg n = true := by
  obtain ⟨m, -, e, -, -, e'⟩ := segfn_ok g hg
  rw [h] at e; cases e; exact e'

/-- Other files do not matter. -/
theorem _root_.Ferret.Spec.Shows.other {c : Nat → SIS} {d : Disk} {st : Stage} (h : Shows c d st) (hf : st.top < 2 ^ 63) {evs : List DiskEv} (he : noSeg evs) :
    Shows c (d.applyAll evs) st := by
  have hget : ∀ n, isSeg n = true → (d.applyAll evs).get n = d.get n := fun n hn =>
    Disk.get_applyAll_ne _ _ _ (fun ev hev e => by have := he ev hev; rw [e, hn] at this; cases this)
  have hcom : ∀ s, hasCommit d s → hasCommit (d.applyAll evs) s := by
    rintro s ⟨n, junk, e1, e2⟩
    exact ⟨n, junk, e1, by rw [hget n (segfn_isSeg (toU_lt 8 _) e1)]; exact e2⟩
  refine ⟨hcom _ h.whole, ?_, ?_, ?_⟩
  · intro g hst
    obtain ⟨n, k, e1, e2, e3⟩ := h.part g hst
    exact ⟨n, k, e1, by rw [hget n (segfn_isSeg (toU_lt 8 _) e1)]; exact e2, e3⟩
  · intro g n hst hn
    have hg : g < 2 ^ 64 := by subst hst; simp only [Stage.top] at hf; omega
    rw [hget n (segfn_isSeg hg hn)]
    rcases h.old g n hst hn with e | e
    · exact Or.inl e
    · exact Or.inr (hcom _ e)
  · intro n hn hs
    rcases Disk.names_applyAll _ _ _ hn with hn | ⟨ev, hev, e⟩
    · exact h.names n hn hs
    · have := he ev hev
      rw [e, hs] at this
      cases this

theorem _root_.Ferret.Spec.Shows.absent {c : Nat → SIS} {d : Disk} {st : Stage} (h : Shows c d st) (hf : st.top < 2 ^ 63) {g : Nat} {n : Name} (hg : g < 2 ^ 63)
    (hn : segfn g = .ok n) (hr : g < st.low ∨ st.top < g) : d.get n = none := by
  apply Classical.byContradiction
  intro hne
  have hs : (d.get n).isSome = true := Option.isSome_iff_ne_none.mpr hne
  rw [Disk.get_isSome] at hs
  obtain ⟨g', h1, h2, h3⟩ := h.names n hs (segfn_isSeg (by omega) hn)
  have := segfn_inj (by omega) (by omega) hn h3
  omega

variable {c : Nat → SIS} {d : Disk} {g : Nat}

theorem shows_name (hg : g < 2 ^ 63) (hgen : (c g).generation = g) {n : Name} (hn : segfn g = .ok n) : segfn (toU 8 (c g).generation) = .ok n := by
  rw [hgen, Props.toU8 g hg, hn]

/-- The file of the next commit is being written. -/
theorem _root_.Ferret.Spec.Shows.part_next (h : Shows c d (.idle g)) (hg : g + 1 < 2 ^ 63) (h1 : (c (g + 1)).generation = ((g + 1 : Nat) : Int)) (h0 : (c g).generation = g) {n : Name}
    (hn : segfn (g + 1) = .ok n) (j : Nat) (hj : j < (sisBytes (c (g + 1))).length)
    (hcut : ¬ (fisOffset (c (g + 1)) ≤ j ∧ j < fisOffset (c (g + 1)) + Fis.headLen (c (g + 1)).fis)) :
    Shows c (d.applyAll (writeFile n ((sisBytes (c (g + 1))).take j))) (.writing g) := by
  have habs : d.get n = none := h.absent (show g < _ by omega) hg hn (Or.inr (show g < g + 1 by omega))
  have hget := Disk.get_writeFile d n ((sisBytes (c (g + 1))).take j)
  rw [habs] at hget
  simp only [Option.getD_none, List.drop_nil, List.append_nil] at hget
  have hev := writeFile_name n ((sisBytes (c (g + 1))).take j)
  obtain ⟨m, junk, e1, e2⟩ := h.whole
  have e1' := e1
  simp only [Stage.newest] at e1 e1'
  rw [h0, Props.toU8 g (by omega)] at e1'
  have hne : n ≠ m := by
    intro e
    subst e
    have := segfn_inj (by omega) (by omega) hn e1'
    omega
  refine ⟨⟨m, junk, e1, ?_⟩, ?_, ?_, ?_⟩
  · rw [Disk.get_applyAll_ne _ _ _ (fun ev hv => by rw [hev ev hv]; exact hne)]; exact e2
  · intro g' hg'
    cases hg'
    exact ⟨n, j, shows_name (by omega) h1 hn, hget, hj, hcut⟩
  · intro g' n' hst; cases hst
  · intro m hm hs
    rcases Disk.names_applyAll _ _ _ hm with hm | ⟨ev, hv, e⟩
    · obtain ⟨g', h1, h2, h3⟩ := h.names m hm hs
      exact ⟨g', h1, Nat.le_succ_of_le h2, h3⟩
    · rw [hev ev hv] at e
      subst e
      exact ⟨g + 1, Nat.le_succ g, Nat.le_refl _, hn⟩

/-- The file of the next commit has been written. -/
theorem _root_.Ferret.Spec.Shows.next (h : Shows c d (.idle g)) (hg : g + 1 < 2 ^ 63) (h1 : (c (g + 1)).generation = ((g + 1 : Nat) : Int)) (h0 : (c g).generation = g) {n : Name}
    (hn : segfn (g + 1) = .ok n) : Shows c (d.applyAll (writeFile n (sisBytes (c (g + 1))))) (.wrote (g + 1)) := by
  have habs : d.get n = none := h.absent (show g < _ by omega) hg hn (Or.inr (show g < g + 1 by omega))
  have hget := Disk.get_writeFile d n (sisBytes (c (g + 1)))
  rw [habs] at hget
  simp only [Option.getD_none, List.drop_nil] at hget
  have hev := writeFile_name n (sisBytes (c (g + 1)))
  obtain ⟨m, junk, e1, e2⟩ := h.whole
  have e1' := e1
  simp only [Stage.newest] at e1 e1'
  rw [h0, Props.toU8 g (by omega)] at e1'
  have hne : n ≠ m := by
    intro e
    subst e
    have := segfn_inj (by omega) (by omega) hn e1'
    omega
  refine ⟨⟨n, [], shows_name (by omega) h1 hn, hget⟩, ?_, ?_, ?_⟩
  · intro g' hg'; cases hg'
  · intro g' n' hst hn'
    cases hst
    right
    refine ⟨m, junk, e1, ?_⟩
    rw [Disk.get_applyAll_ne _ _ _ (fun ev hv => by rw [hev ev hv]; exact hne)]; exact e2
  · intro m hm hs
    rcases Disk.names_applyAll _ _ _ hm with hm | ⟨ev, hv, e⟩
    · obtain ⟨g', h1, h2, h3⟩ := h.names m hm hs
      exact ⟨g', h1, Nat.le_succ_of_le h2, h3⟩
    · rw [hev ev hv] at e
      subst e
      exact ⟨g + 1, Nat.le_succ g, Nat.le_refl _, hn⟩

/-- The file of the commit before is removed. -/
theorem _root_.Ferret.Spec.Shows.remove (h : Shows c d (.wrote (g + 1))) (hg : g + 1 < 2 ^ 63) (h1 : (c (g + 1)).generation = ((g + 1 : Nat) : Int)) {n : Name}
    (hn : segfn g = .ok n) : Shows c (d.applyAll [.del n]) (.idle (g + 1)) := by
  obtain ⟨m, junk, e1, e2⟩ := h.whole
  have e1' := e1
  simp only [Stage.newest] at e1 e1'
  rw [h1, Props.toU8 _ (by omega)] at e1'
  have hne : n ≠ m := by
    intro e
    subst e
    have := segfn_inj (by omega) (by omega) hn e1'
    omega
  refine ⟨⟨m, junk, e1, ?_⟩, ?_, ?_, ?_⟩
  · show (d.apply (.del n)).get m = _
    rw [Disk.get_apply_ne d (.del n) m hne]; exact e2
  · intro g' hg'; cases hg'
  · intro g' n' hst; cases hst
  · intro x hx hs
    have hxn : x ≠ n := by
      intro e
      subst e
      have hx : x ∈ (d.apply (.del x)).names := hx
      rw [← Disk.get_isSome, Disk.get_del] at hx
      cases hx
    rcases Disk.names_applyAll _ _ _ hx with hx | ⟨ev, hv, e⟩
    · obtain ⟨g', h1, h2, h3⟩ := h.names x hx hs
      simp only [Stage.low, Stage.top] at h1 h2
      have : g' ≠ g := by
        intro e
        subst e
        rw [hn] at h3
        cases h3
        exact hxn rfl
      exact ⟨g', by simp only [Stage.low]; omega, by simp only [Stage.top]; omega, h3⟩
    · simp at hv
      subst hv
      exact absurd e.symm hxn

theorem _root_.Ferret.Spec.Shows.weaken (h : Shows c d (.idle (g + 1))) (hg : g + 1 < 2 ^ 63) : Shows c d (.wrote (g + 1)) := by
  refine ⟨h.whole, ?_, ?_, ?_⟩
  · intro g' hg'; cases hg'
  · intro g' n hst hn
    cases hst
    exact Or.inl (h.absent (show g + 1 < _ by omega) (by omega) hn (Or.inl (show g < g + 1 by omega)))
  · intro m hm hs
    obtain ⟨g', h1, h2, h3⟩ := h.names m hm hs
    simp only [Stage.low, Stage.top] at h1 h2
    exact ⟨g', by simp only [Stage.low]; omega, by simp only [Stage.top]; omega, h3⟩

/-- What sis_write does, with the file of the commit before removed. -/
theorem sisWrite_events (s : SIS) (h0 : s.generation = g) (hg : g + 1 < 2 ^ 63) :
    ∃ n prev gb, segfn (g + 1) = .ok n ∧ segfn g = .ok prev ∧
      sisWrite s true = .ok (writeFile n (sisBytes (committed s)) ++ (writeFile segmentsFile gb ++ [.del prev])) := by
  obtain ⟨n, -, h1, -, -, -⟩ := segfn_ok (g + 1) (by omega)
  obtain ⟨prev, -, h2, -, -, -⟩ := segfn_ok g (by omega)
  have hgen : (committed s).generation = ((g + 1 : Nat) : Int) := by show s.generation + 1 = _; omega
  refine ⟨n, prev, beBytes 8 (toU 8 ((g + 1 : Nat) : Int)) ++ beBytes 8 (toU 8 ((g + 1 : Nat) : Int)), h1, h2, ?_⟩
  have e1 : ((g + 1 : Nat) : Int) - 1 = (g : Int) := by omega
  have e2 : ((g + 1 : Nat) : Int) > 0 := by omega
  simp only [sisWrite, hgen, Props.toU8 _ hg, h1, e1, Props.toU8 g (by omega), h2, Res.ok_bind, e2, and_self, if_true]

/-- What a writer is given: the commits are what they should be. -/
structure Writes (c : Nat → SIS) (g : Nat) (rs : List Round) : Prop where
  before : (c g).generation = g
  gen : ∀ i r, rs[i]? = some r → r.new.generation = ((g + i : Nat) : Int) ∧ c (g + i + 1) = committed r.new
  other : ∀ r ∈ rs, noSeg r.pre ∧ noSeg r.post
  room : g + rs.length < 2 ^ 63 - 1

theorem noSeg_take {evs : List DiskEv} (h : noSeg evs) (k : Nat) : noSeg (evs.take k) := fun ev hev => h ev (List.mem_of_mem_take hev)

/-- No segments file is cut within the first bytes of the field infos. -/
def noCut (c : Nat → SIS) (lo hi : Nat) (d : Disk) : Prop := ∀ g n b, lo ≤ g → g ≤ hi → segfn g = .ok n → d.get n = some b →
  ¬ (fisOffset (c g) ≤ b.length ∧ b.length < fisOffset (c g) + Fis.headLen (c g).fis)

/-- After any number of events of the writer the directory shows the stage. -/
theorem writer_shows {lo hi : Nat} : ∀ (rs : List Round) (d : Disk) (g k : Nat) (evs : List DiskEv), lo ≤ g → g + rs.length ≤ hi → Writes c g rs → writerEvents rs = .ok evs → Shows c d (.idle g) →
    noCut c lo hi (d.applyAll (evs.take k)) → Shows c (d.applyAll (evs.take k)) (stageAt g rs k) := by
  intro rs
  induction rs with
  | nil =>
    intro d g k evs _ _ _ he h _
    simp only [writerEvents, Res.ok.injEq] at he
    subst he
    rw [List.take_nil]
    exact h
  | cons r rs ih =>
    intro d g k evs hlo hhi hw he h hcut
    simp only [List.length_cons] at hhi
    have hroom := hw.room
    simp only [List.length_cons] at hroom
    have hg : g + 1 < 2 ^ 63 := by omega
    obtain ⟨hrg, hrc⟩ := hw.gen 0 r rfl
    simp only [Nat.add_zero] at hrg hrc
    have h1 : (c (g + 1)).generation = ((g + 1 : Nat) : Int) := by rw [hrc]; show r.new.generation + 1 = _; omega
    obtain ⟨n, prev, gb, hn, hp, hsw⟩ := sisWrite_events r.new hrg hg
    rw [← hrc] at hsw
    obtain ⟨hpre, hpost⟩ := hw.other r (by simp)
    simp only [writerEvents, hsw, Res.ok_bind] at he
    cases hws : writerEvents rs with
    | raise e => rw [hws] at he; simp at he
    | ub => rw [hws] at he; simp at he
    | ok es =>
      rw [hws] at he
      simp only [Res.ok_bind, Res.ok.injEq] at he
      subst he
      have hu : r.untilWhole = r.pre.length + ((sisBytes (c (g + 1))).length + 1) := by rw [hrc]; rfl
      have ht : r.total = r.pre.length + (((sisBytes (c (g + 1))).length + 1) + ((writeFile segmentsFile gb).length + 1)) + r.post.length := by
        simp only [Round.total, hsw, List.length_append]
        simp [writeFile, writeFrom_length]
      have hwl : (writeFile n (sisBytes (c (g + 1)))).length = (sisBytes (c (g + 1))).length + 1 := by simp [writeFile, writeFrom_length]
      have hd1 : Shows c (d.applyAll r.pre) (.idle g) := h.other (show g < _ by omega) hpre
      have hseg : noSeg (writeFile segmentsFile gb) := fun ev hev => by rw [writeFile_name _ _ _ hev]; exact Props.isSeg_segmentsFile
      simp only [stageAt]
      by_cases k1 : k ≤ r.pre.length
      · rw [if_pos k1, List.take_append_of_le_length k1]
        exact h.other (show g < _ by omega) (noSeg_take hpre k)
      · rw [if_neg k1]
        obtain ⟨j, rfl⟩ : ∃ j, k = r.pre.length + (j + 1) := ⟨k - r.pre.length - 1, by omega⟩
        rw [List.take_length_add_append, Disk.applyAll_append] at hcut ⊢
        by_cases k2 : r.pre.length + (j + 1) < r.untilWhole
        · rw [if_pos k2]
          have hj : j < (sisBytes (c (g + 1))).length := by omega
          rw [List.append_assoc, List.take_append_of_le_length (by omega)] at hcut ⊢
          have hwt : (writeFile n (sisBytes (c (g + 1)))).take (j + 1) = writeFile n ((sisBytes (c (g + 1))).take j) := by
            simp only [writeFile, List.take_succ_cons, writeFrom_take]
          rw [hwt] at hcut ⊢
          refine hd1.part_next hg h1 hw.before hn j hj ?_
          have habs : (d.applyAll r.pre).get n = none := hd1.absent (show g < _ by omega) hg hn (Or.inr (show g < g + 1 by omega))
          have hget := Disk.get_writeFile (d.applyAll r.pre) n ((sisBytes (c (g + 1))).take j)
          rw [habs] at hget
          simp only [Option.getD_none, List.drop_nil, List.append_nil] at hget
          have := hcut (g + 1) n _ (by omega) (by omega) hn hget
          rw [List.length_take, Nat.min_eq_left (by omega)] at this
          exact this
        · rw [if_neg k2]
          have hd2 : Shows c ((d.applyAll r.pre).applyAll (writeFile n (sisBytes (c (g + 1))))) (.wrote (g + 1)) := hd1.next hg h1 hw.before hn
          obtain ⟨i, hi⟩ : ∃ i, j + 1 = (writeFile n (sisBytes (c (g + 1)))).length + i := ⟨j + 1 - (writeFile n (sisBytes (c (g + 1)))).length, by omega⟩
          have hi' : r.pre.length + (j + 1) = r.pre.length + ((writeFile n (sisBytes (c (g + 1)))).length + i) := by rw [hi]
          rw [hi']
          rw [hi, List.append_assoc, List.take_length_add_append, Disk.applyAll_append] at hcut ⊢
          generalize hD2 : (d.applyAll r.pre).applyAll (writeFile n (sisBytes (c (g + 1)))) = d2 at hcut hd2 ⊢
          rw [List.append_assoc] at hcut ⊢
          have htop : (Stage.wrote (g + 1)).top < 2 ^ 63 := hg
          have htop' : (Stage.idle (g + 1)).top < 2 ^ 63 := hg
          by_cases k3 : i ≤ (writeFile segmentsFile gb).length
          · rw [if_pos (by omega), List.take_append_of_le_length k3]
            exact hd2.other htop (noSeg_take hseg i)
          · obtain ⟨l, rfl⟩ : ∃ l, i = (writeFile segmentsFile gb).length + (l + 1) := ⟨i - (writeFile segmentsFile gb).length - 1, by omega⟩
            have hd3 : Shows c ((d2.applyAll (writeFile segmentsFile gb)).applyAll [.del prev]) (.idle (g + 1)) :=
              (hd2.other htop hseg).remove hg h1 hp
            rw [List.take_length_add_append, Disk.applyAll_append] at hcut ⊢
            generalize d2.applyAll (writeFile segmentsFile gb) = d3 at hcut hd3 ⊢
            rw [show ([DiskEv.del prev] ++ (r.post ++ es)).take (l + 1) = [DiskEv.del prev] ++ (r.post ++ es).take l by simp, Disk.applyAll_append] at hcut ⊢
            generalize d3.applyAll [DiskEv.del prev] = d4 at hcut hd3 ⊢
            by_cases k4 : l < r.post.length
            · rw [if_pos (by omega), List.take_append_of_le_length (by omega)]
              exact (hd3.other htop' (noSeg_take hpost l)).weaken hg
            · rw [if_neg (by omega)]
              obtain ⟨m, rfl⟩ : ∃ m, l = r.post.length + m := ⟨l - r.post.length, by omega⟩
              rw [List.take_length_add_append, Disk.applyAll_append] at hcut ⊢
              rw [show r.pre.length + ((writeFile n (sisBytes (c (g + 1)))).length + ((writeFile segmentsFile gb).length + (r.post.length + m + 1))) - r.total = m by omega]
              refine ih _ (g + 1) m es (by omega) (by omega) ⟨h1, ?_, ?_, ?_⟩ hws (hd3.other htop' hpost) hcut
              · intro i r' hr'
                have := hw.gen (i + 1) r' hr'
                rw [show g + 1 + i = g + (i + 1) by omega]
                exact this
              · intro r' hr'
                exact hw.other r' (by simp [hr'])
              · omega

/-- On a directory that does not change the search is the one of Model/SegmentInfos. -/
theorem findLive_still {α : Type} (run : Disk → Int → Res α) (d : Disk) : ∀ (n t t' : Nat) (s : Find) (r : Res α),
    findLive run (fun _ => d) n t s = some (r, t') → findLoop d (run d) n s = r := by
  intro n
  induction n with
  | zero => intro t t' s r h; simp [findLive] at h
  | succ n ih =>
    intro t t' s r h
    have hg : genLive d d s = findGen d s := rfl
    have ht : ∀ s, tryLive run d d d s = findTry d (run d) s := fun _ => rfl
    simp only [findLive, roundLive, hg, ht] at h
    simp only [findLoop]
    cases h1 : findGen d s with
    | raise e => rw [h1] at h; simp at h; simp [h.1]
    | ub => rw [h1] at h; simp at h; simp [h.1]
    | ok s' =>
      rw [h1] at h
      simp only [Res.ok_bind] at h ⊢
      cases h2 : findTry d (run d) s' with
      | raise e => rw [h2] at h; simp at h; simp [h.1]
      | ub => rw [h2] at h; simp at h; simp [h.1]
      | ok x =>
        rw [h2] at h
        simp only [Res.ok_bind] at h ⊢
        cases x with
        | some x => simp at h; exact h.1
        | none => exact ih _ _ _ _ h

/-- How far a search has come in a directory that does not change: `m` is what listing gives, `f` what the file says. -/
inductive Still (d : Disk) : Nat → Find → Prop
  | start : Still d 0 findStart
  | list (m : Int) (r : Bool) : currentGeneration (-1) d.names = .ok m → m ≠ -1 → Still d (if r then 2 else 1) ⟨m, m, r, 0, 0⟩
  | file (g : Int) (r : Bool) : genFile d g = g → Still d (if r then 4 else 3) ⟨g, g, r, 1, 0⟩
  | ahead (g : Int) (a : Nat) : a ≤ 10 → 1 ≤ a → Still d (4 + a) ⟨g, g, false, 2, a⟩
  | last (g : Int) : Still d 15 ⟨g, g, true, 2, 10⟩

theorem genFile_again (d : Disk) (g : Int) : genFile d (genFile d g) = genFile d g ∧ g ≤ genFile d g := by
  unfold genFile
  cases d.get segmentsFile with
  | none => simp
  | some c =>
    simp only []
    cases rdBE 8 0 c with
    | ok p =>
      obtain ⟨g0, c'⟩ := p
      simp only []
      cases rdBE 8 0 c' with
      | ok p' =>
        obtain ⟨g1, c''⟩ := p'
        simp only []
        constructor <;> (repeat' split) <;> omega
      | raise e => simp only []; constructor <;> (repeat' split) <;> omega
      | ub => simp only []; constructor <;> (repeat' split) <;> omega
    | raise e => simp only []; constructor <;> (repeat' split) <;> omega
    | ub => simp only []; constructor <;> (repeat' split) <;> omega

theorem Still.next {d : Disk} {k : Nat} {s s' : Find} (h : Still d k s) (hg : genLive d d s = .ok s') : ∃ k', k < k' ∧ k' ≤ 15 ∧ Still d k' s' := by
  cases h with
  | start =>
    cases hc : currentGeneration (-1) d.names with
    | raise e => simp [genLive, findStart, hc] at hg
    | ub => simp [genLive, findStart, hc] at hg
    | ok m =>
      by_cases hm : m = -1
      · simp [genLive, findStart, hc, hm] at hg
      · have hm' : ¬ (-1 : Int) = m := fun e => hm e.symm
        simp [genLive, findStart, hc, hm, hm'] at hg
        subst hg
        exact ⟨1, by omega, by omega, Still.list m false hc hm⟩
  | list m r hc hm =>
    cases r with
    | false =>
      simp [genLive, hc, hm] at hg
      subst hg
      exact ⟨2, by simp, by omega, Still.list m true hc hm⟩
    | true =>
      have hf := genFile_again d m
      by_cases e : m = genFile d m
      · have hx : ¬ m = m + 1 := by omega
        simp [genLive, hc, hm, ← e, hx] at hg
        subst hg
        exact ⟨4 + 1, by simp, by omega, Still.ahead (m + 1) 1 (by omega) (by omega)⟩
      · simp [genLive, hc, hm, e] at hg
        subst hg
        exact ⟨3, by simp, by omega, Still.file _ false hf.1⟩
  | file g r hf =>
    cases r with
    | false =>
      simp [genLive, hf] at hg
      subst hg
      exact ⟨4, by simp, by omega, Still.file g true hf⟩
    | true =>
      have hx : ¬ g = g + 1 := by omega
      simp [genLive, hf, hx] at hg
      subst hg
      exact ⟨4 + 1, by simp, by omega, Still.ahead (g + 1) 1 (by omega) (by omega)⟩
  | ahead g a h1 h2 =>
    by_cases ha : a < 10
    · have hx : ¬ g = g + 1 := by omega
      simp [genLive, ha, hx] at hg
      subst hg
      exact ⟨4 + (a + 1), by omega, by omega, Still.ahead (g + 1) (a + 1) (by omega) (by omega)⟩
    · have : a = 10 := by omega
      subst this
      simp [genLive] at hg
      subst hg
      exact ⟨15, by omega, by omega, Still.last g⟩
  | last g => simp [genLive] at hg

/-- In a directory that does not change the search ends after at most 16 rounds, whatever is in the directory. -/
theorem findLive_ends {α : Type} (run : Disk → Int → Res α) (d : Disk) : ∀ (n k t : Nat) (s : Find), Still d k s → 16 ≤ n + k →
    findLive run (fun _ => d) n t s ≠ none := by
  intro n
  induction n with
  | zero =>
    intro k t s h hk
    have : k ≤ 15 := by
      cases h
      · omega
      · split <;> omega
      · split <;> omega
      · omega
      · omega
    omega
  | succ n ih =>
    intro k t s h hk
    simp only [findLive, roundLive]
    cases h1 : genLive d d s with
    | raise e => simp
    | ub => simp
    | ok s' =>
      simp only [Res.ok_bind]
      obtain ⟨k', hk1, hk2, hs⟩ := h.next h1
      cases h2 : tryLive run d d d s' with
      | raise e => simp
      | ub => simp
      | ok x =>
        simp only [Res.ok_bind]
        cases x with
        | some x => simp
        | none => exact ih k' _ _ hs (by omega)

end Ferret.Sis
