import Verif.Lemmas.PhraseQuery
import Verif.Lemmas.PhraseSloppy
import Verif.Spec.Walked

/-! What holds wherever a phrase scorer stops. -/

namespace Ferret.Phrase

open Ferret.Post (Posting)
open Ferret.Spec (PhrasePart TermAt PartAt PhraseAt Within Walked)
open Ferret.Scorer (Arith View Good perm_map_lift)

variable {ε F S T : Type} {o : TdeOps ε} {Ok : ε → Prop} {view : ε → Tde} {Pre : List Key → Prop} {Val : List (Int × List Int) → F → Prop} {zero : F → Bool} {A : Arith S}

/-- State of a phrase scorer on document `lo`, or before the first. -/
def PhAt (Ok : ε → Prop) (view : ε → Tde) (Val : List (Int × List Int) → F → Prop) (zero : F → Bool) (tfw : F → S) (norm : Int → S) (ks : List Key) (s : PhSc ε F S) (lo : Int) : Prop :=
  s.tfw = tfw ∧ s.norm = norm ∧ ∃ E : List (Ent ε), (E.map key).Perm ks ∧ s.pps = E.map (·.pp) ∧ s.more = true ∧ (New Ok view E s lo ∨ On Ok view Val zero ks E s lo)

theorem walked_at (hl : Lawful o Ok view) {qs : QSort ε} (hq : Sorts qs) {pf : Freq ε F} (hpf : FreqOK o Ok view pf Pre Val) {ks : List Key} {M N : Int → Prop}
    (hv : IsPh Pre Val zero ks M N) {tfw : F → S} {norm : Int → S} {s : PhSc ε F S} (h0 : PhAt Ok view Val zero tfw norm ks s (-1))
    {lo : Int} {t : PhSc ε F S} (h : Walked (phraseOps A o qs pf zero) s lo t) : PhAt Ok view Val zero tfw norm ks t lo := by
  have step : ∀ {lo : Int} {t u : PhSc ε F S}, PhMoved o Ok view Val zero ks M N lo t (true, u) → t.tfw = tfw → t.norm = norm → PhAt Ok view Val zero tfw norm ks u u.doc := by
    intro lo t u h ht hn
    rcases h with ⟨_, d, E, h1, h2, h3, h4, h5, h6, h7, h8, h9⟩ | ⟨h1, _⟩
    · have hd : 0 ≤ d := by
        obtain ⟨k, hk⟩ := List.exists_mem_of_ne_nil _ hv.ne
        obtain ⟨q, _, hq⟩ := h1.1 k hk
        omega
      have hon := h6 hd
      have hdoc : u.doc = d := hon.2.2.2.1
      rw [hdoc]
      exact ⟨h7.trans ht, h8.trans hn, E, h3, h4, h5, .inr hon⟩
    · cases h1
  induction h with
  | start => exact h0
  | next hw hr ih =>
    obtain ⟨i1, i2, E, i3, i4, i5, i6⟩ := ih
    obtain ⟨r, r1, r2⟩ := phNext_spec hl hq hpf hv i3 i4 i5 i6
    have : Res.ok r = Res.ok (true, _) := r1.symm.trans hr
    cases this
    exact step r2 i1 i2
  | skip hw hn hr ih =>
    obtain ⟨i1, i2, E, i3, i4, i5, i6⟩ := ih
    obtain ⟨r, r1, r2⟩ := phSkipTo_spec hl hq hpf hv i3 i4 i6 hn
    have : Res.ok r = Res.ok (true, _) := r1.symm.trans hr
    cases this
    exact step r2 i1 i2
  | score hw hr ih =>
    have : ∃ f, Res.ofOption _ = .ok f ∧ _ := (Res.bind_eq_ok ..).1 hr
    obtain ⟨f, _, hf⟩ := this
    cases hf
    exact ih

/-- Wherever a phrase scorer has come: the next calls return; on a document, the frequency stands for the positions
there, `N` holds, and the score is the weight of the frequency times the norm. -/
theorem walked_spec (hl : Lawful o Ok view) {qs : QSort ε} (hq : Sorts qs) {pf : Freq ε F} (hpf : FreqOK o Ok view pf Pre Val) {ks : List Key} {M N : Int → Prop}
    (hv : IsPh Pre Val zero ks M N) {tfw : F → S} {norm : Int → S} {s : PhSc ε F S} (h0 : PhAt Ok view Val zero tfw norm ks s (-1))
    {lo : Int} {t : PhSc ε F S} (h : Walked (phraseOps A o qs pf zero) s lo t) :
    (∃ r, (phraseOps A o qs pf zero).next t = .ok r) ∧ (∀ n, lo < n → ∃ r, (phraseOps A o qs pf zero).skipTo t n = .ok r) ∧
      (0 ≤ lo → N lo ∧ ∃ f, Val (ats lo ks) f ∧ zero f = false ∧ (phraseOps A o qs pf zero).score t = .ok (A.mul (tfw f) (norm lo), 0, t)) := by
  obtain ⟨i1, i2, E, i3, i4, i5, i6⟩ := walked_at hl hq hpf hv h0 h
  refine ⟨?_, fun n hn => ?_, fun hlo => ?_⟩
  · obtain ⟨r, r1, _⟩ := phNext_spec hl hq hpf hv i3 i4 i5 i6
    exact ⟨r, r1⟩
  · obtain ⟨r, r1, _⟩ := phSkipTo_spec hl hq hpf hv i3 i4 i6 hn
    exact ⟨r, r1⟩
  · rcases i6 with h | h
    · have := h.1; omega
    · obtain ⟨_, h1, h2, h3, f, h4, h5, h6⟩ := h
      refine ⟨(hv.val lo f h5).2 h6, f, h5, h6, ?_⟩
      show phScore A t = _
      rw [phScore, h4, h3, i1, i2]; rfl

/-- A new scorer of a phrase query. -/
theorem phw_at {ix : T → List Posting} (hix : ∀ t, DocsOK (ix t)) (tfw : F → S) (norm : Int → S) (q : PhQ T) (hq : q.parts ≠ []) :
    ∃ s, phwScorer ix tfw norm q = .ok (some s) ∧ PhAt anyOk anyView Val zero tfw norm (keysOf ix q.parts) s (-1) := by
  obtain ⟨es, h1, E, h2, h3, h4⟩ := partEnums_spec hix q.parts
  refine ⟨PhSc.new tfw norm es, ?_, rfl, rfl, E, by rw [h3], h2, rfl, .inl ⟨rfl, rfl, h4⟩⟩
  unfold phwScorer
  have : q.parts.isEmpty = false := by cases h : q.parts with
    | nil => exact absurd h hq
    | cons a b => rfl
  rw [this, h1]
  rfl

/-! ### The sloppy frequency of a phrase query -/

theorem ats_keysOf (ix : T → List Posting) (ph : List (PhrasePart T)) (d : Int) : ats d (keysOf ix ph) = ph.map fun x => (x.offset, occAt (partDocs ix x) d) := by
  unfold ats keysOf; rw [List.map_map]; rfl

theorem Scored.within {ix : T → List Posting} (hix : ∀ t, DocsOK (ix t)) {ph : List (PhrasePart T)} {d k : Int} {check : Bool} (h : Scored check (ats d (keysOf ix ph)) k) :
    Within ix ph k d := by
  obtain ⟨lo, cs, _, h2, h3, _⟩ := h
  refine ⟨lo, fun x hx => ?_⟩
  have hm : (x.offset, occAt (partDocs ix x) d) ∈ cs.map (·.1) := by
    rw [h2.mem_iff, ats_keysOf]; exact List.mem_map_of_mem (f := fun x : PhrasePart T => (x.offset, occAt (partDocs ix x) d)) hx
  obtain ⟨c, hc, hce⟩ := List.mem_map.1 hm
  obtain ⟨a, b, e⟩ := h3 c hc
  rw [hce] at a b e
  exact ⟨c.2 - x.offset, b, e, (mem_partDocs hix x).1 (by rw [show c.2 - x.offset + x.offset = c.2 by omega]; exact a)⟩

theorem within_window {ix : T → List Posting} (hix : ∀ t, DocsOK (ix t)) {ph : List (PhrasePart T)} {d k : Int} (h : Within ix ph k d) :
    ∃ lo, (∀ x ∈ ats d (keysOf ix ph), ∃ p ∈ x.2, lo ≤ p - x.1 ∧ p - x.1 ≤ lo + k) ∧ ∀ x ∈ ph, ∃ p, p ≤ lo + k ∧ PartAt ix x d (p + x.offset) := by
  obtain ⟨lo, h⟩ := h
  refine ⟨lo, fun y hy => ?_, fun x hx => ?_⟩
  · rw [ats_keysOf] at hy
    obtain ⟨x, hx, rfl⟩ := List.mem_map.1 hy
    obtain ⟨p, p1, p2, p3⟩ := h x hx
    refine ⟨p + x.offset, (mem_partDocs hix x).2 p3, ?_, ?_⟩ <;> simp only [] <;> omega
  · obtain ⟨p, _, p2, p3⟩ := h x hx
    exact ⟨p, p2, p3⟩

/-! ### Different words -/

theorem far_sublist {α : Type} {R : α → α → Prop} : ∀ {l m : List α}, m.Sublist l → Far R l → Far R m := by
  intro l m h
  induction h with
  | slnil => exact id
  | cons a _ ih => exact fun h => ih h.2
  | cons_cons a hs ih => exact fun h => ⟨fun z hz => h.1 z (hs.tail.mem hz), ih h.2⟩

theorem far_map {α β : Type} {R : β → β → Prop} (f : α → β) : ∀ l : List α, Far R (l.map f) → Far (fun x y => R (f x) (f y)) l := by
  intro l
  induction l with
  | nil => exact id
  | cons x l ih =>
    intro h
    refine ⟨fun z hz => h.1 (f z) ?_, ih h.2⟩
    rw [← List.map_tail]
    exact List.mem_map_of_mem hz

/-- Every other element. -/
def everyOther {α : Type} : List α → List α
  | [] => []
  | [x] => [x]
  | x :: _ :: l => x :: everyOther l

theorem everyOther_sublist {α : Type} : ∀ l : List α, (everyOther l).Sublist l
  | [] => .slnil
  | [_] => .refl _
  | x :: y :: l => ((everyOther_sublist l).cons y).cons_cons x

theorem everyOther_length {α : Type} : ∀ l : List α, (everyOther l).length = (l.length + 1) / 2
  | [] => by simp [everyOther]
  | [_] => by simp [everyOther]
  | x :: y :: l => by
    rw [everyOther, List.length_cons, everyOther_length l, List.length_cons, List.length_cons]; omega

theorem far_everyOther {α : Type} {R : α → α → Prop} : ∀ l : List α, Far R l → (everyOther l).Pairwise R
  | [], _ => .nil
  | [_], _ => List.pairwise_singleton _ _
  | x :: y :: l, h => by
    rw [everyOther]
    refine List.pairwise_cons.2 ⟨fun z hz => h.1 z ?_, far_everyOther l h.2.2⟩
    exact (everyOther_sublist l).mem hz

theorem sublist_perm {α : Type} {l l' : List α} (hp : l.Perm l') : ∀ {K : List α}, K.Sublist l → ∃ K' : List α, K'.Perm K ∧ K'.Sublist l' := by
  induction hp with
  | nil => intro K h; exact ⟨K, .refl _, h⟩
  | cons x _ ih =>
    intro K h
    cases h with
    | cons _ h => obtain ⟨K', a, b⟩ := ih h; exact ⟨K', a, b.cons _⟩
    | cons_cons _ h => obtain ⟨K', a, b⟩ := ih h; exact ⟨x :: K', a.cons _, b.cons_cons _⟩
  | swap x y l =>
    intro K h
    cases h with
    | cons _ h =>
      cases h with
      | cons _ h => exact ⟨_, .refl _, (h.cons _).cons _⟩
      | cons_cons _ h => exact ⟨_, .refl _, (h.cons _).cons_cons _⟩
    | cons_cons _ h =>
      cases h with
      | cons _ h => exact ⟨_, .refl _, (h.cons_cons _).cons _⟩
      | cons_cons _ h => exact ⟨_, .swap _ _ _, (h.cons_cons _).cons_cons _⟩
  | trans _ _ ih1 ih2 =>
    intro K h
    obtain ⟨K1, a, b⟩ := ih1 h
    obtain ⟨K2, c, e⟩ := ih2 b
    exact ⟨K2, c.trans a, e⟩

/-- A scored match of a phrase with repeated terms: any phrase positions with different offsets are on at least half as
many words. -/
theorem Scored.words {ix : T → List Posting} (hix : ∀ t, DocsOK (ix t)) {ph : List (PhrasePart T)} {d k : Int} (h : Scored true (ats d (keysOf ix ph)) k)
    {K : List (PhrasePart T)} (hK : K.Sublist ph) (hoff : (K.map (·.offset)).Nodup) :
    ∃ L : List Int, L.Nodup ∧ L.length = (K.length + 1) / 2 ∧ ∀ p ∈ L, ∃ x ∈ K, PartAt ix x d p := by
  obtain ⟨lo, cs, _, h2, h3, h4⟩ := h
  rw [ats_keysOf] at h2
  obtain ⟨ph', q1, q2⟩ := perm_map_lift (fun x : PhrasePart T => (x.offset, occAt (partDocs ix x) d)) h2 ph rfl
  obtain ⟨K', r1, r2⟩ := sublist_perm q1.symm hK
  have hlen : ph'.length = cs.length := by
    have := congrArg List.length q2
    simpa using this
  have hz1 : (ph'.zip cs).map (·.1) = ph' := List.map_fst_zip (by omega)
  have hz2 : (ph'.zip cs).map (·.2) = cs := List.map_snd_zip (by omega)
  rw [← hz1] at r2
  obtain ⟨Z, z1, z2⟩ := List.sublist_map_iff.1 r2
  have hfar : Far (fun x y : PhrasePart T × ((Int × List Int) × Int) => x.2.1.1 ≠ y.2.1.1 → x.2.2 ≠ y.2.2) (ph'.zip cs) := by
    have := h4 rfl
    rw [← hz2] at this
    exact far_map _ _ this
  have hkey : ∀ z ∈ ph'.zip cs, z.2.1 = (z.1.offset, occAt (partDocs ix z.1) d) := by
    intro z hz
    obtain ⟨i, hi⟩ := List.getElem?_of_mem hz
    rw [List.getElem?_zip_eq_some] at hi
    have h5 : (ph'.map fun x : PhrasePart T => (x.offset, occAt (partDocs ix x) d))[i]? = (cs.map (·.1))[i]? := by rw [q2]
    rw [List.getElem?_map, List.getElem?_map, hi.1, hi.2] at h5
    simpa using h5.symm
  have hZoff : (Z.map fun z => z.1.offset).Nodup := by
    have : (Z.map fun z => z.1.offset) = K'.map (·.offset) := by rw [z2, List.map_map]; rfl
    rw [this]
    exact ((r1.map (·.offset)).nodup_iff).2 hoff
  have hZlen : Z.length = K.length := by
    rw [← r1.length_eq, z2, List.length_map]
  refine ⟨(everyOther Z).map (·.2.2), ?_, by rw [List.length_map, everyOther_length, hZlen], ?_⟩
  · have p1 := far_everyOther Z (far_sublist z1 hfar)
    have p2 : (everyOther Z).Pairwise fun x y => x.1.offset ≠ y.1.offset := by
      rw [List.Nodup, List.pairwise_map] at hZoff
      exact hZoff.sublist (everyOther_sublist Z)
    show (List.map _ _).Pairwise _
    rw [List.pairwise_map]
    refine List.Pairwise.imp_of_mem ?_ (p1.and p2)
    intro a b ha hb hab
    refine hab.1 ?_
    rw [hkey a (z1.mem ((everyOther_sublist Z).mem ha)), hkey b (z1.mem ((everyOther_sublist Z).mem hb))]
    exact hab.2
  · intro p hp
    obtain ⟨z, hz, rfl⟩ := List.mem_map.1 hp
    have hzm := z1.mem ((everyOther_sublist Z).mem hz)
    refine ⟨z.1, r1.mem_iff.1 (by rw [z2]; exact List.mem_map_of_mem ((everyOther_sublist Z).mem hz)), ?_⟩
    have hc := (h3 z.2 (by rw [← hz2]; exact List.mem_map_of_mem (f := Prod.snd) hzm)).1
    rw [hkey z hzm] at hc
    exact (mem_partDocs hix z.1).1 hc

end Ferret.Phrase
