import Verif.Lemmas.SpanNear

/-! The moves of the enumerator of the spans of a `near` query. -/

namespace Ferret.Span

open Ferret.Spec (SpLe SpLex Proper)
open Ferret.Phrase (intMax)

variable {σ : Type} {o : Ops σ} {R : σ → Caps → Option Sp → List Sp → Prop} {D : σ → Caps → Prop}

/-- The step of a `near` query. -/
def stepOf (inOrder : Bool) (slop : Int) : Step := if inOrder then stepO slop else stepU slop

theorem stepOf_ok (inOrder : Bool) (slop : Int) : StepOK (stepOf inOrder slop) := by
  unfold stepOf
  cases inOrder
  · exact stepU_ok slop
  · exact stepO_ok slop

/-- The enumerator of a `near` query: where it is, and what is ahead. -/
def NearR (R : σ → Caps → Option Sp → List Sp → Prop) (e : NearE σ) (k : Caps) (c : Option Sp) (L : List Sp) : Prop :=
  k.late = false ∧ e.firstTime = true ∧
  match c with
  | none => e.at_.doc = -1 ∧ e.current = 0 ∧ ∃ g gs, e.subs = sts (g :: gs) ∧ (∀ h ∈ g :: gs, h.c = none ∧ R h.st h.k none h.L ∧ Ord h.L ∧ h.k.skips = true) ∧
      (∀ h ∈ gs, h.k.early = true) ∧ L = near (stepOf e.inOrder e.slop) ((g :: gs).map NG.L)
  | some x => e.at_ = x ∧ ∃ A g B, e.subs = sts (A ++ g :: B) ∧ e.current = A.length ∧ (∀ h ∈ A ++ g :: B, NOK R h) ∧
      (∀ h ∈ A ++ g :: B, AtDoc x.doc h) ∧ L = near (stepOf e.inOrder e.slop) (rems A ++ g.L :: rems B)

def NearD (_ : NearE σ) (k : Caps) : Prop := k.late = false

theorem size_rems' {gs : List (NG σ)} (h : ∀ g ∈ gs, ∃ x, g.c = some x) : size (rems gs) = sizeL gs + gs.length := by
  induction gs with
  | nil => rfl
  | cons g gs ih =>
    obtain ⟨x, h1⟩ := h g (List.mem_cons_self ..)
    have := ih fun a ha => h a (List.mem_cons_of_mem _ ha)
    simp only [rems, List.map_cons, size_cons, NG.rem, h1, Option.toList_some, List.singleton_append, List.length_cons, sizeL_cons] at *
    omega

theorem found_next {st : Step} (hst : StepOK st) {k : Caps} (hk : k.late = false) {e : NearE σ} {Ks : List (List Sp)} (ho : ∀ K ∈ Ks, Ord K)
    {g : Bool × NearE σ} (hg : Found R e Ks g) {F : NearE σ → Res (Bool × NearE σ)}
    (hF : ∀ e' gs d, Same e e' → e'.subs = sts gs → gs ≠ [] → (∀ g ∈ gs, NOK R g) → (∀ g ∈ gs, AtDoc d g) → sizeL gs + Ks.length ≤ size Ks →
      ∃ r, F e' = .ok r ∧ Stepped (NearR R) NearD k r (near st (rems gs))) :
    ∃ r, (if g.1 then F g.2 else .ok (false, g.2)) = .ok r ∧ Stepped (NearR R) NearD k r (near st Ks) := by
  unfold Found at hg
  cases ha : align Ks with
  | none =>
    rw [ha] at hg
    rw [near_none hst ho ha]
    dsimp only at hg
    rw [hg, if_neg (by simp)]
    exact ⟨_, rfl, rfl, hk⟩
  | some p =>
    rw [ha] at hg
    obtain ⟨h1, h2, gs, h3, h4, h5, h6⟩ := hg
    rw [h1, if_pos rfl]
    have hlen := align_length ho ha
    have hsz := size_align ho ha
    have hne : gs ≠ [] := by
      rintro rfl
      have := (al_of_align ho ha).ne
      rw [← h6] at this
      exact this rfl
    have hcong : near st Ks = near st (rems gs) := by
      refine near_congr hst ho (rems_ord h4) ?_
      rw [ha, align_al (al_rems hne h4 h5), h6]
    rw [hcong]
    refine hF g.2 gs p.1 h2 h3 hne h4 h5 ?_
    have := size_rems h5
    rw [h6] at this
    have h7 : p.2.length = gs.length := by rw [← h6]; simp [rems]
    omega

/-! ### Any order -/

theorem windowLoop_spec (g : Good o R D) : ∀ (gs : List (NG σ)) (i : Nat) (w : Window) (d : Int), (∀ g ∈ gs, NOK R g) → (∀ g ∈ gs, AtDoc d g) →
    windowLoop o (sts gs) i w = .ok (wfold (heads (rems gs)) i w)
  | [], _, _, _, _, _ => rfl
  | b :: gs, i, w, d, hok, hd => by
    obtain ⟨x, h1, _⟩ := hd b (List.mem_cons_self ..)
    have hr := (hok b (List.mem_cons_self ..)).r
    rw [h1] at hr
    have hh : heads (rems (b :: gs)) = x :: heads (rems gs) := by
      simp [heads, rems, NG.rem, h1]
    rw [hh]
    show windowLoop o (b.st :: sts gs) i w = _
    unfold windowLoop wfold
    rw [g.cur hr, Res.ok_bind]
    exact windowLoop_spec g gs _ _ d (fun a ha => hok a (List.mem_cons_of_mem _ ha)) (fun a ha => hd a (List.mem_cons_of_mem _ ha))

theorem rems_append (A B : List (NG σ)) : rems (A ++ B) = rems A ++ rems B := by simp [rems]

theorem rems_cons (b : NG σ) (B : List (NG σ)) : rems (b :: B) = b.rem :: rems B := rfl

theorem rems_split {gs : List (NG σ)} {A B : List (List Sp)} {K : List Sp} (h : rems gs = A ++ K :: B) :
    ∃ GA g GB, gs = GA ++ g :: GB ∧ rems GA = A ∧ g.rem = K ∧ rems GB = B := by
  obtain ⟨l1, l2, rfl, h1, h2⟩ := List.map_eq_append_iff.1 h
  obtain ⟨g, l3, rfl, h3, h4⟩ := List.map_eq_cons_iff.1 h2
  exact ⟨l1, g, l3, rfl, h1, h3, h4⟩

theorem mem_mid {α : Type} {A B : List α} {a b c : α} (h : c ∈ A ++ b :: B) : c = b ∨ c ∈ A ++ a :: B ∧ c ∈ A ++ B := by
  simp only [List.mem_append, List.mem_cons] at *
  rcases h with h | h | h
  · exact .inr ⟨.inl h, .inl h⟩
  · exact .inl h
  · exact .inr ⟨.inr (.inr h), .inr h⟩

/-- After a move of a clause the clauses go to a document of all. -/
theorem realign (g : Good o R D) {A B : List (NG σ)} {b b' : NG σ} {d : Int} (hok : ∀ h ∈ A ++ b :: B, NOK R h) (hd : ∀ h ∈ A ++ b :: B, AtDoc d h)
    (h0 : 0 ≤ d) (hb' : NOK R b') {x : Sp} (hx : b'.c = some x) (hdx : d ≤ x.doc) {e : NearE σ} (he : e.subs = sts (A ++ b' :: B)) :
    (∀ h ∈ A ++ b' :: B, NOK R h) ∧ (∀ h ∈ A ++ b' :: B, ∃ y, h.c = some y) ∧ (x.doc = d → ∀ h ∈ A ++ b' :: B, AtDoc d h) ∧
    (e.current = A.length → ∃ r, gotoNextDoc o e = .ok r ∧ Found R e (rems (A ++ b' :: B)) r) := by
  have hok' : ∀ h ∈ A ++ b' :: B, NOK R h := by
    intro h hh
    rcases mem_mid (a := b) hh with rfl | hh
    · exact hb'
    · exact hok h hh.1
  refine ⟨hok', ?_, ?_, ?_⟩
  · intro h hh
    rcases mem_mid (a := b) hh with rfl | hh
    · exact ⟨x, hx⟩
    · obtain ⟨y, h1, _⟩ := hd h hh.1
      exact ⟨y, h1⟩
  · intro e h hh
    rcases mem_mid (a := b) hh with rfl | hh
    · exact ⟨x, hx, e⟩
    · exact hd h hh.1
  · intro hc
    have hbd : b'.doc = x.doc := by simp [NG.doc, hx]
    refine gotoNextDoc_spec g he hc hok' (d := d) (fun h hh => ?_) (by omega) (by omega)
    refine (hd h ?_).doc
    simp only [List.mem_append, List.mem_cons] at *
    rcases hh with h | h
    · exact .inl h
    · exact .inr (.inr h)

theorem AtDoc.ge {d : Int} {b : NG σ} (h : AtDoc d b) (hok : NOK R b) : 0 ≤ d ∧ ∀ x ∈ b.L, d ≤ x.doc := by
  obtain ⟨x, h1, rfl⟩ := h
  have ho := hok.ord
  rw [NG.rem, h1] at ho
  simp only [Option.toList_some, List.singleton_append] at ho
  refine ⟨(ho.2 x (List.mem_cons_self ..)).1, fun y hy => ?_⟩
  have := (List.pairwise_cons.1 ho.1).1 y hy
  unfold SpLe at this; omega

theorem NOK.moved (g : Good o R D) {b : NG σ} (hb : NOK R b) : ∃ r, o.next b.st = .ok r ∧ Stepped R D b.k r b.L := g.next hb.r hb.ord

theorem NOK.tail {b : NG σ} (hb : NOK R b) {s : σ} {x : Sp} {K : List Sp} (hL : b.L = x :: K) (hr : R s b.k (some x) K) : NOK R ⟨s, b.k, some x, K⟩ :=
  ⟨hr, by
    have := hb.ord
    rw [NG.rem, hL] at this
    exact this.sub (List.sublist_append_right ..), hb.sk, fun h => nomatch h⟩

theorem unordered_spec (g : Good o R D) {k : Caps} (hk : k.late = false) : ∀ (fuel : Nat) (gs : List (NG σ)) (e : NearE σ) (d : Int),
    e.subs = sts gs → gs ≠ [] → (∀ h ∈ gs, NOK R h) → (∀ h ∈ gs, AtDoc d h) → e.inOrder = false → e.firstTime = true → sizeL gs < fuel →
    ∃ r, unordered o fuel e = .ok r ∧ Stepped (NearR R) NearD k r (near (stepU e.slop) (rems gs))
  | 0, _, _, _, _, _, _, _, _, _, h => by omega
  | fuel + 1, gs, e, d, he, hne, hok, hd, hio, hft, hf => by
    have hal := al_rems hne hok hd
    have hst := stepU_ok e.slop
    obtain ⟨A, x, K, B, e1, e2, e3, e4, e5⟩ := stepU_al (slop := e.slop) hal
    obtain ⟨GA, b, GB, rfl, rfl, hbr, rfl⟩ := rems_split e1
    rw [near_some hst hal.ord (align_al hal), e5]
    unfold unordered
    have hwl : windowLoop o e.subs 0 ⟨0, intMax, 0, none⟩ = .ok (window (heads (rems (GA ++ b :: GB)))) := by
      rw [he]
      exact windowLoop_spec g _ _ _ d hok hd
    rw [hwl, Res.ok_bind]
    have hbd := hd b (by simp)
    have hbo := hok b (by simp)
    have hbc : b.c = some x ∧ b.L = K := by
      obtain ⟨y, h1, _⟩ := hbd
      rw [NG.rem, h1] at hbr
      simp only [Option.toList_some, List.singleton_append, List.cons.injEq] at hbr
      exact ⟨by rw [h1, hbr.1], hbr.2⟩
    have hmin : (window (heads (rems (GA ++ b :: GB)))).min = some GA.length := by
      have := e3; simpa [rems] using this
    rw [hmin]
    simp only [Res.ofOption, Res.ok_bind]
    obtain ⟨y, h1, h2, h3⟩ := nearSub_spec g (e := { e with current := GA.length }) he hbo
    rw [h1, Res.ok_bind, h3 x hbc.1, e4]
    dsimp only
    generalize window (heads (rems (GA ++ b :: GB))) = w
    by_cases hfit : w.maxEnd - x.start - w.lengths ≤ e.slop
    · rw [if_pos hfit, if_pos hfit]
      refine ⟨_, rfl, rfl, hk, hft, ?_, GA, b, GB, he, rfl, hok, ?_, ?_⟩
      · show (⟨x.doc, x.start, w.maxEnd⟩ : Sp) = ⟨d, x.start, w.maxEnd⟩
        rw [e2]
      · exact hd
      · show near (stepU e.slop) (rems GA ++ K :: rems GB) = near (stepOf e.inOrder e.slop) _
        rw [hio, stepOf, if_neg (by simp), hbc.2]
    · rw [if_neg hfit, if_neg hfit]
      simp only [Option.toList_none, List.nil_append]
      obtain ⟨r, g1, g2⟩ := hbo.moved g
      rw [g1, Res.ok_bind]
      cases hL : b.L with
      | nil =>
        rw [hL] at g2
        rw [g2.1, if_neg (by simp), ← hbc.2, hL]
        have hoK : ∀ C ∈ rems GA ++ [] :: rems GB, Ord C := by
          have := rems_ord hok
          intro C hC
          rcases List.mem_append.1 hC with h | h
          · exact this C (by rw [rems_append]; exact List.mem_append_left _ h)
          · rcases List.mem_cons.1 h with rfl | h
            · exact ⟨.nil, fun _ h => nomatch h⟩
            · exact this C (by rw [rems_append]; exact List.mem_append_right _ (List.mem_cons_of_mem _ h))
        rw [near_none hst hoK align_nil]
        exact ⟨_, rfl, rfl, hk⟩
      | cons z K' =>
        rw [hL] at g2
        rw [g2.1, if_pos rfl, g.cur g2.2, Res.ok_bind, ← hbc.2, hL]
        obtain ⟨h0, hge⟩ := hbd.ge hbo
        have hz := hge z (by rw [hL]; exact List.mem_cons_self ..)
        have hb' := hbo.tail hL g2.2
        let b' : NG σ := ⟨r.2, b.k, some z, K'⟩
        have hput : (NearE.put { e with current := GA.length } GA.length r.2).subs = sts (GA ++ b' :: GB) := put_spec (b' := b') he
        obtain ⟨t1, t2, t3, t4⟩ := realign g hok hd h0 hb' (x := z) rfl hz (b' := b') hput
        have hrem : rems GA ++ (z :: K') :: rems GB = rems (GA ++ b' :: GB) := by simp [rems, NG.rem, b']
        have hsz : sizeL (GA ++ b' :: GB) < fuel := by
          have : b'.L.length = K'.length := rfl
          simp only [sizeL_append, sizeL_cons, hL, List.length_cons] at hf ⊢
          omega
        rw [hrem, e2]
        by_cases hmv : d < z.doc
        · rw [if_pos hmv]
          obtain ⟨r', t5, t6⟩ := t4 rfl
          rw [t5, Res.ok_bind]
          refine found_next hst hk (rems_ord t1) t6 (F := unordered o fuel) fun e' gs d' s1 s2 s3 s4 s5 s6 => ?_
          have := unordered_spec g hk fuel gs e' d' s2 s3 s4 s5 (by rw [s1.2.1]; exact hio) (by rw [s1.2.2]; exact hft) (by
            have := size_rems' t2
            have : (rems (GA ++ b' :: GB)).length = (GA ++ b' :: GB).length := by simp [rems]
            omega)
          rw [s1.1] at this
          exact this
        · rw [if_neg hmv]
          exact unordered_spec g hk fuel _ _ d hput (by simp) t1 (t3 (by omega)) hio hft hsz

/-! ### In order -/

theorem orderLoop_spec (g : Good o R D) {k : Caps} (prev : Sp) : ∀ (fuel : Nat) (s : σ) (x : Sp) (K : List Sp), R s k (some x) K → Ord (x :: K) → K.length < fuel →
    ∃ r, orderLoop o prev fuel s x = .ok r ∧ match (x :: K).dropWhile (ordBefore prev) with
      | [] => r.1 = none
      | z :: K' => r.1 = some z ∧ R r.2 k (some z) K'
  | 0, _, _, _, _, _, h => by omega
  | fuel + 1, s, x, K, hR, ho, hf => by
    unfold orderLoop
    by_cases hb : x.doc = prev.doc ∧ (x.start < prev.start ∨ x.start = prev.start ∧ x.stop < prev.stop)
    · rw [if_pos hb, List.dropWhile_cons_of_pos (by simpa [ordBefore] using hb)]
      obtain ⟨r, h1, h2⟩ := g.next hR ho
      rw [h1, Res.ok_bind]
      cases K with
      | nil =>
        rw [h2.1, if_neg (by simp)]
        exact ⟨_, rfl, rfl⟩
      | cons y K =>
        rw [h2.1, if_pos rfl, g.cur h2.2, Res.ok_bind]
        exact orderLoop_spec g prev fuel r.2 y K h2.2 (ho.sub (List.sublist_cons_self ..)) (by simp only [List.length_cons] at hf; omega)
    · rw [if_neg hb, List.dropWhile_cons_of_neg (by simpa [ordBefore] using hb)]
      exact ⟨_, rfl, rfl, hR⟩

/-- How the loop over the clauses ends. -/
def Chained (R : σ → Caps → Option Sp → List Sp → Prop) (e : NearE σ) (d : Int) (As : List (List Sp)) (cl : List (List Sp) × Option (Sp × Int)) (r : Ordered × NearE σ) : Prop :=
  match cl.2 with
  | some p => r.1 = .inOrder p.1 p.2 ∧ FoundAt R e r.2 (d, As ++ cl.1)
  | none => match align (As ++ cl.1) with
    | none => r.1 = .finished
    | some q => r.1 = .moved ∧ FoundAt R e r.2 q

theorem chainLoop_spec (g : Good o R D) : ∀ (B A : List (NG σ)) (prev : Sp) (len : Int) (e : NearE σ) (d : Int), e.subs = sts (A ++ B) →
    (∀ h ∈ A ++ B, NOK R h) → (∀ h ∈ A ++ B, AtDoc d h) → prev.doc = d →
    ∃ r, chainLoop o B.length A.length prev len e = .ok r ∧ Chained R e d (rems A) (chainL prev len (rems B)) r
  | [], A, prev, len, e, d, he, hok, hd, hp => by
    rw [List.append_nil] at he hok hd
    refine ⟨_, rfl, rfl, ⟨rfl, rfl, rfl⟩, A, he, hok, hd, ?_⟩
    show rems A = rems A ++ []
    rw [List.append_nil]
  | b :: B, A, prev, len, e, d, he, hok, hd, hp => by
    have hbo := hok b (by simp)
    have hbd := hd b (by simp)
    obtain ⟨h0, hge⟩ := hbd.ge hbo
    obtain ⟨x, hx, hxd⟩ := hd b (by simp)
    have hbr : b.rem = x :: b.L := by simp [NG.rem, hx]
    show ∃ r, chainLoop o (B.length + 1) A.length prev len e = .ok r ∧ _
    unfold chainLoop
    obtain ⟨y, h1, _, h3⟩ := nearSub_spec g he hbo
    rw [h1, Res.ok_bind, h3 x hx]
    have hr := hbo.r
    rw [hx] at hr
    have ho := hbo.ord
    rw [hbr] at ho
    obtain ⟨r, h4, h5⟩ := orderLoop_spec g prev (o.left b.st + 1) b.st x b.L hr ho (Nat.lt_succ_of_le (g.left hbo.r))
    dsimp only
    rw [h4, Res.ok_bind]
    rw [rems_cons, chainL, hbr]
    cases hdw : (x :: b.L).dropWhile (ordBefore prev) with
    | nil =>
      rw [hdw] at h5
      dsimp only at h5
      rw [h5]
      refine ⟨_, rfl, ?_⟩
      unfold Chained
      dsimp only
      rw [align_nil]
    | cons z K' =>
      rw [hdw] at h5
      obtain ⟨h6, h7⟩ := h5
      rw [h6]
      have hoz : Ord (z :: K') := by rw [← hdw]; exact ho.sub (List.dropWhile_sublist _)
      let b' : NG σ := ⟨r.2, b.k, some z, K'⟩
      have hb' : NOK R b' := ⟨h7, hoz, hbo.sk, fun h => nomatch h⟩
      have hput : (NearE.put e A.length r.2).subs = sts (A ++ b' :: B) := put_spec (b' := b') he
      have hzm : z ∈ x :: b.L := (List.dropWhile_sublist (ordBefore prev)).subset (by rw [hdw]; exact List.mem_cons_self ..)
      have hz : d ≤ z.doc := by
        rcases List.mem_cons.1 hzm with rfl | h
        · omega
        · exact hge z h
      dsimp only
      by_cases hne : z.doc ≠ prev.doc
      · rw [if_pos hne, if_pos hne]
        obtain ⟨t1, t2, t3, t4⟩ := realign g (e := { NearE.put e A.length r.2 with current := A.length }) hok hd h0 hb' (x := z) rfl hz (b' := b') hput
        obtain ⟨r', t5, t6⟩ := t4 rfl
        rw [t5, Res.ok_bind]
        refine ⟨_, rfl, ?_⟩
        unfold Chained
        dsimp only
        unfold Found at t6
        rw [rems_append, rems_cons] at t6
        have : b'.rem = z :: K' := rfl
        rw [this] at t6
        cases ha : align (rems A ++ (z :: K') :: rems B) with
        | none =>
          rw [ha] at t6
          dsimp only at t6 ⊢
          rw [t6]; rfl
        | some q =>
          rw [ha] at t6
          dsimp only at t6 ⊢
          rw [t6.1]
          exact ⟨rfl, t6.2⟩
      · rw [if_neg hne, if_neg hne]
        obtain ⟨t1, t2, t3, t4⟩ := realign g hok hd h0 hb' (x := z) rfl hz (b' := b') hput
        have t3 := t3 (by omega)
        obtain ⟨r', t5, t6⟩ := chainLoop_spec g B (A ++ [b']) z (len + (z.stop - z.start)) (NearE.put e A.length r.2) d
          (by rw [List.append_assoc]; exact hput) (by simpa using t1) (by simpa using t3) (by omega)
        rw [List.length_append] at t5
        refine ⟨r', t5, ?_⟩
        unfold Chained at t6 ⊢
        have : rems (A ++ [b']) ++ (chainL z (len + (z.stop - z.start)) (rems B)).1 = rems A ++ (z :: K') :: (chainL z (len + (z.stop - z.start)) (rems B)).1 := by
          simp [rems, NG.rem, b']
        rw [this] at t6
        exact t6

theorem ordered_spec (g : Good o R D) {k : Caps} (hk : k.late = false) : ∀ (fuel : Nat) (gs : List (NG σ)) (e : NearE σ) (d : Int),
    e.subs = sts gs → gs ≠ [] → (∀ h ∈ gs, NOK R h) → (∀ h ∈ gs, AtDoc d h) → e.inOrder = true → e.firstTime = true → sizeL gs < fuel →
    ∃ r, ordered o fuel e = .ok r ∧ Stepped (NearR R) NearD k r (near (stepO e.slop) (rems gs))
  | 0, _, _, _, _, _, _, _, _, _, h => by omega
  | fuel + 1, [], _, _, _, hne, _, _, _, _, _ => absurd rfl hne
  | fuel + 1, b :: G, e, d, he, hne, hok, hd, hio, hft, hf => by
    have hal := al_rems hne hok hd
    have hst := stepO_ok e.slop
    have hbo := hok b (by simp)
    obtain ⟨y, hy, hyd⟩ := hd b (by simp)
    have hbr : b.rem = y :: b.L := by simp [NG.rem, hy]
    rw [near_some hst hal.ord (align_al hal)]
    unfold ordered
    obtain ⟨y', h1, _, h3⟩ := nearSub_spec (A := []) g he hbo
    simp only [List.length_nil] at h1
    rw [h1, Res.ok_bind, h3 y hy]
    dsimp only
    have hlen : e.subs.length - 1 = G.length := by rw [he]; simp [sts]
    rw [hlen]
    obtain ⟨c, c1, c2⟩ := chainLoop_spec g G [b] y (y.stop - y.start) e d he hok hd hyd
    simp only [List.length_singleton] at c1
    rw [c1, Res.ok_bind]
    have hKt : ∀ K ∈ rems G, ∃ x K', K = x :: K' ∧ x.doc = d := fun K hK => hal.doc K (by rw [rems_cons]; exact List.mem_cons_of_mem _ hK)
    obtain ⟨q1, q2, q3, q4⟩ := chainL_spec (rems G) y (y.stop - y.start) hyd hKt
    have hstep : stepO e.slop d (rems (b :: G)) = match (chainL y (y.stop - y.start) (rems G)).2 with
      | none => (none, (y :: b.L) :: (chainL y (y.stop - y.start) (rems G)).1)
      | some p => (if p.1.stop - y.start - p.2 ≤ e.slop then some ⟨p.1.doc, y.start, p.1.stop⟩ else none, b.L :: (chainL y (y.stop - y.start) (rems G)).1) := by
      rw [rems_cons, hbr]; rfl
    have hrb : rems [b] = [y :: b.L] := by rw [rems_cons, hbr]; rfl
    rw [hrb] at c2
    rw [hstep]
    have hdr := hst.drops hal
    rw [hstep] at hdr
    unfold Chained at c2
    have hszg := size_rems hd
    rw [rems_cons, size_cons, hbr, List.length_cons, List.length_cons] at hszg
    generalize chainL y (y.stop - y.start) (rems G) = cl at *
    obtain ⟨Cs, op⟩ := cl
    cases op with
    | none =>
      dsimp only at c2 hdr q3 ⊢
      simp only [Option.toList_none, List.nil_append] at c2 ⊢
      have hoC := hdr.ord hal.ord
      rw [List.singleton_append] at c2
      cases ha : align ((y :: b.L) :: Cs) with
      | none =>
        rw [ha] at c2
        dsimp only at c2
        rw [c2, near_none hst hoC ha]
        exact ⟨_, rfl, rfl, hk⟩
      | some q =>
        rw [ha] at c2
        obtain ⟨c3, c4⟩ := c2
        rw [c3]
        dsimp only
        have hF : Found R e ((y :: b.L) :: Cs) (true, c.2) := by
          unfold Found
          rw [ha]
          exact ⟨rfl, c4⟩
        have := found_next hst hk hoC hF (F := ordered o fuel) fun e' gs d' s1 s2 s3 s4 s5 s6 => by
          have := ordered_spec g hk fuel gs e' d' s2 s3 s4 s5 (by rw [s1.2.1]; exact hio) (by rw [s1.2.2]; exact hft) (by
            have h5 := q3 rfl
            have h6 : Cs.length = G.length := by
              have := q1.length
              simpa [rems] using this
            rw [size_cons, List.length_cons, List.length_cons] at s6
            omega)
          rw [s1.1] at this
          exact this
        rw [if_pos rfl] at this
        exact this
    | some p =>
      obtain ⟨last, len⟩ := p
      dsimp only at c2 hdr q4 ⊢
      obtain ⟨c3, c4, gs', s1, s2, s3, s4⟩ := c2
      have hlast := q4 _ rfl
      dsimp only at hlast
      rw [c3]
      dsimp only
      rw [c4.1]
      rw [List.singleton_append] at s4
      obtain ⟨b1, G1, rfl, hb1, hG1⟩ := List.map_eq_cons_iff.1 s4
      change rems G1 = Cs at hG1
      have hb1o := s2 b1 (by simp)
      obtain ⟨y1, hy1, hy1d⟩ := s3 b1 (by simp)
      have hL1 : b1.c = some y ∧ b1.L = b.L := by
        rw [NG.rem, hy1] at hb1
        simp only [Option.toList_some, List.singleton_append, List.cons.injEq] at hb1
        exact ⟨by rw [hy1, hb1.1], hb1.2⟩
      by_cases hfit : last.stop - y.start - len ≤ e.slop
      · rw [if_pos hfit, if_pos hfit]
        refine ⟨_, rfl, rfl, hk, c4.2.2.trans hft, rfl, [], b1, G1, s1, rfl, s2, ?_, ?_⟩
        · show ∀ h ∈ b1 :: G1, AtDoc last.doc h
          rw [hlast]
          exact s3
        · show near (stepO e.slop) (b.L :: Cs) = near (stepOf c.2.inOrder e.slop) (b1.L :: rems G1)
          rw [c4.2.1, hio, stepOf, if_pos rfl, hL1.2, hG1]
      · rw [if_neg hfit, if_neg hfit]
        simp only [Option.toList_none, List.nil_append]
        obtain ⟨z', z1, _, _⟩ := nearSub_spec (A := []) g s1 hb1o
        simp only [List.length_nil] at z1
        rw [z1, Res.ok_bind]
        dsimp only
        obtain ⟨r, g1, g2⟩ := hb1o.moved g
        rw [g1, Res.ok_bind]
        have hoC := hdr.ord hal.ord
        rw [← hL1.2] at hoC ⊢
        cases hL : b1.L with
        | nil =>
          rw [hL] at g2 hoC
          rw [g2.1, if_neg (by simp), near_none hst hoC (align_nil (A := []))]
          exact ⟨_, rfl, rfl, hk⟩
        | cons z K' =>
          rw [hL] at g2
          rw [g2.1, if_pos rfl, g.cur g2.2, Res.ok_bind]
          obtain ⟨h0, hge⟩ := (s3 b1 (by simp)).ge hb1o
          have hz := hge z (by rw [hL]; exact List.mem_cons_self ..)
          have hb' := hb1o.tail hL g2.2
          let b' : NG σ := ⟨r.2, b1.k, some z, K'⟩
          have hput : (NearE.put c.2 0 r.2).subs = sts ([] ++ b' :: G1) := put_spec (A := []) (b' := b') s1
          have hrem : (z :: K') :: Cs = rems ([] ++ b' :: G1) := by rw [← hG1]; rfl
          have hCl : Cs.length = G1.length := by rw [← hG1]; simp [rems]
          have hsz : sizeL ([] ++ b' :: G1) < fuel := by
            have h5 : b'.L.length = K'.length := rfl
            have h6 := size_rems s3
            rw [s4, size_cons, List.length_cons, List.length_cons] at h6
            have h7 : Cs.length = G.length := by
              have := q1.length
              simpa [rems] using this
            dsimp only at q2
            have h8 : sizeL (b1 :: G1) ≤ sizeL (b :: G) := by omega
            simp only [List.nil_append, sizeL_cons, hL, List.length_cons] at h8 hf ⊢
            omega
          rw [hrem, hlast]
          by_cases hmv : z.doc ≠ d
          · rw [if_pos hmv]
            obtain ⟨t1, t2, t3, t4⟩ := realign (A := []) g (e := { NearE.put c.2 0 r.2 with current := 0 }) s2 s3 h0 hb' (x := z) rfl hz (b' := b') hput
            obtain ⟨r', t5, t6⟩ := t4 rfl
            rw [t5, Res.ok_bind]
            refine found_next hst hk (rems_ord t1) t6 (F := ordered o fuel) fun e' gs d' s1 s2 s3 s4 s5 s6 => ?_
            have := ordered_spec g hk fuel gs e' d' s2 s3 s4 s5 (by rw [s1.2.1]; exact c4.2.1.trans hio) (by rw [s1.2.2]; exact c4.2.2.trans hft) (by
              have := size_rems' t2
              have : (rems ([] ++ b' :: G1)).length = ([] ++ b' :: G1).length := by simp [rems]
              omega)
            rw [s1.1] at this
            change ∃ r, _ ∧ Stepped _ _ _ _ (near (stepO c.2.slop) _) at this
            rw [c4.1] at this
            exact this
          · rw [if_neg hmv]
            obtain ⟨t1, t2, t3, t4⟩ := realign (A := []) g s2 s3 h0 hb' (x := z) rfl hz (b' := b') hput
            have := ordered_spec g hk fuel _ (NearE.put c.2 0 r.2) d hput (by simp) t1 (t3 (by omega)) (c4.2.1.trans hio) (c4.2.2.trans hft) hsz
            change ∃ r, _ ∧ Stepped _ _ _ _ (near (stepO c.2.slop) _) at this
            rw [c4.1] at this
            exact this

/-! ### The enumerator -/

theorem match_spec (g : Good o R D) {k : Caps} (hk : k.late = false) {gs : List (NG σ)} {e : NearE σ} {d : Int} (he : e.subs = sts gs) (hne : gs ≠ [])
    (hok : ∀ h ∈ gs, NOK R h) (hd : ∀ h ∈ gs, AtDoc d h) (hft : e.firstTime = true) :
    ∃ r, (if e.inOrder then ordered o (nearLeft o e + 1) e else unordered o (nearLeft o e + 1) e) = .ok r ∧
      Stepped (NearR R) NearD k r (near (stepOf e.inOrder e.slop) (rems gs)) := by
  have hsz : sizeL gs < nearLeft o e + 1 := by
    have := sizeL_le g hok
    rw [← he] at this
    exact Nat.lt_succ_of_le this
  unfold stepOf
  cases hio : e.inOrder with
  | false =>
    rw [if_neg (by simp), if_neg (by simp)]
    exact unordered_spec g hk _ gs e d he hne hok hd hio hft hsz
  | true =>
    rw [if_pos rfl, if_pos rfl]
    exact ordered_spec g hk _ gs e d he hne hok hd hio hft hsz

theorem nextMatch_spec (g : Good o R D) {k : Caps} (hk : k.late = false) {A B : List (NG σ)} {b : NG σ} {e : NearE σ} {d : Int} {x : Sp}
    (he : e.subs = sts (A ++ b :: B)) (hc : e.current = A.length) (hok : ∀ h ∈ A ++ b :: B, NOK R h) (hx : b.c = some x)
    (hd : ∀ h ∈ A ++ B, h.doc = d) (hdx : d ≤ x.doc) (hft : e.firstTime = true) :
    ∃ r, nextMatch o e = .ok r ∧ Stepped (NearR R) NearD k r (near (stepOf e.inOrder e.slop) (rems (A ++ b :: B))) := by
  have hbd : b.doc = x.doc := by simp [NG.doc, hx]
  have h0 : 0 ≤ x.doc := (AtDoc.ge ⟨x, hx, rfl⟩ (hok b (by simp))).1
  unfold nextMatch
  rw [hft, if_pos rfl, Res.ok_bind]
  dsimp only
  rw [if_pos rfl]
  obtain ⟨y, h1, h2, _⟩ := nearSub_spec g he (hok b (by simp))
  rw [hc, h1, Res.ok_bind]
  have hfol : ∃ z, nearSub o e e.following = .ok z ∧ (z.2.doc = d ∨ z.2.doc = x.doc ∧ A ++ B = []) := by
    have hlen : e.subs.length = A.length + (B.length + 1) := by rw [he]; simp [sts]
    cases B with
    | cons c B =>
      have hfol : e.following = (A ++ [b]).length := by
        unfold NearE.following
        simp only [hlen, hc, List.length_append, List.length_cons, List.length_nil]
        rw [Nat.mod_eq_of_lt (by omega)]
      obtain ⟨z, z1, z2, _⟩ := nearSub_spec (A := A ++ [b]) (b := c) (B := B) g (by rw [List.append_assoc]; exact he) (hok c (by simp))
      rw [hfol, z1]
      exact ⟨_, rfl, .inl (by rw [z2]; exact hd c (by simp))⟩
    | nil =>
      have hfol : e.following = 0 := by
        unfold NearE.following
        simp only [hlen, hc, List.length_nil]
        exact Nat.mod_self _
      rw [hfol]
      cases A with
      | nil =>
        rw [List.length_nil] at h1
        rw [h1]
        exact ⟨_, rfl, .inr ⟨by rw [h2, hbd], rfl⟩⟩
      | cons a A =>
        obtain ⟨z, z1, z2, _⟩ := nearSub_spec (A := []) (b := a) (B := A ++ [b]) g he (hok a (by simp))
        rw [List.length_nil] at z1
        rw [z1]
        exact ⟨_, rfl, .inl (by rw [z2]; exact hd a (by simp))⟩
  obtain ⟨z, z1, z2⟩ := hfol
  rw [z1, Res.ok_bind, h2, hbd]
  have hst := stepOf_ok e.inOrder e.slop
  by_cases hmv : x.doc > z.2.doc
  · rw [if_pos hmv]
    obtain ⟨r, g1, g2⟩ := gotoNextDoc_spec g he hc hok hd (by omega) (by omega)
    rw [g1, Res.ok_bind]
    refine found_next hst hk (rems_ord hok) g2 (F := fun e => if e.inOrder then ordered o (nearLeft o e + 1) e else unordered o (nearLeft o e + 1) e)
      fun e' gs d' s1 s2 s3 s4 s5 s6 => ?_
    have := match_spec g hk s2 s3 s4 s5 (s1.2.2.trans hft)
    rw [s1.1, s1.2.1] at this
    rw [s1.2.1]
    exact this
  · rw [if_neg hmv, Res.ok_bind]
    dsimp only
    rw [if_pos rfl]
    refine match_spec g hk he (by simp) hok (d := x.doc) (fun h hh => ?_) hft
    rcases mem_mid (a := b) hh with rfl | hh
    · exact ⟨x, hx, rfl⟩
    · have h3 := hd h hh.2
      have h4 : h.doc = x.doc := by
        rcases z2 with h5 | h5
        · omega
        · rw [h5.2] at hh; cases hh.2
      have := atDoc_of (g := h) (by omega)
      rwa [h4] at this

/-- A jump of one clause is a jump of all. -/
theorem near_skip {st : Step} (hst : StepOK st) {A B : List (List Sp)} {K : List Sp} (t : Int) (ho : ∀ C ∈ A ++ K :: B, Ord C) :
    (near st (A ++ K :: B)).dropWhile (docLt t) = near st (A ++ K.dropWhile (docLt t) :: B) := by
  have ho' : ∀ C ∈ A ++ K.dropWhile (docLt t) :: B, Ord C := by
    intro C hC
    rcases List.mem_append.1 hC with h | h
    · exact ho C (by simp [h])
    · rcases List.mem_cons.1 h with rfl | h
      · exact (ho K (by simp)).sub (List.dropWhile_sublist _)
      · exact ho C (by simp [h])
  have ho2 : ∀ C ∈ (A ++ K :: B).map (List.dropWhile (docLt t)), Ord C := by
    intro C hC
    obtain ⟨K, hK, rfl⟩ := List.mem_map.1 hC
    exact (ho K hK).sub (List.dropWhile_sublist _)
  rw [near_drop hst t _ ho]
  refine (near_congr hst ho' ho2 ?_).symm
  rw [align_dropAll (t := t) ho']
  · congr 1
    simp only [List.map_append, List.map_cons, dropWhile_dropWhile (Int.le_refl t)]
  · intro d hd
    obtain ⟨x, hx, rfl⟩ := common_iff.1 hd (K.dropWhile (docLt t)) (by simp)
    exact ((mem_drop (ho K (by simp)) t _).1 hx).2

theorem sizeL_near (g : Good o R D) {gs : List (NG σ)} (h : ∀ h ∈ gs, R h.st h.k h.c h.L) : sizeL gs ≤ ((sts gs).map fun s => o.left s).sum := by
  induction gs with
  | nil => exact Nat.le_refl _
  | cons a gs ih =>
    have h1 := g.left (h a (List.mem_cons_self ..))
    have := ih fun a ha => h a (List.mem_cons_of_mem _ ha)
    simp only [sizeL_cons, sts, List.map_cons, List.sum_cons] at *
    omega

theorem size_map_L (gs : List (NG σ)) : size (gs.map NG.L) = sizeL gs := by
  induction gs with
  | nil => rfl
  | cons g gs ih => rw [List.map_cons, size_cons, ih, sizeL_cons]

theorem ordL {b : NG σ} (h : NOK R b) : Ord b.L := h.ord.sub (List.sublist_append_right ..)

theorem nearR_left (g : Good o R D) {e : NearE σ} {k : Caps} {c : Option Sp} {L : List Sp} (h : NearR R e k c L) : L.length ≤ nearLeft o e := by
  obtain ⟨_, _, h⟩ := h
  have hst := stepOf_ok e.inOrder e.slop
  cases c with
  | none =>
    obtain ⟨_, _, b, gs, h1, h2, _, rfl⟩ := h
    have h3 := sizeL_near g (gs := b :: gs) fun h hh => by rw [(h2 h hh).1]; exact (h2 h hh).2.1
    unfold nearLeft
    rw [h1]
    rcases near_length hst ((b :: gs).map NG.L) (by
      intro K hK
      obtain ⟨a, ha, rfl⟩ := List.mem_map.1 hK
      exact (h2 a ha).2.2.1) with h4 | h4
    · rw [h4]; exact Nat.zero_le _
    · rw [size_map_L, List.length_map, List.length_cons] at h4
      omega
  | some x =>
    obtain ⟨_, A, b, B, h1, _, h2, h3, rfl⟩ := h
    have h4 := sizeL_le g h2
    unfold nearLeft
    rw [h1]
    rcases near_length hst (rems A ++ b.L :: rems B) (by
      intro K hK
      rcases List.mem_append.1 hK with h | h
      · exact rems_ord h2 K (by rw [rems_append]; exact List.mem_append_left _ h)
      · rcases List.mem_cons.1 h with rfl | h
        · exact ordL (h2 b (by simp))
        · exact rems_ord h2 K (by rw [rems_append]; exact List.mem_append_right _ (List.mem_cons_of_mem _ h))) with h5 | h5
    · rw [h5]; exact Nat.zero_le _
    · have h6 := size_rems (gs := A) fun h hh => h3 h (by simp [hh])
      have h7 := size_rems (gs := B) fun h hh => h3 h (by simp [hh])
      have h8 : (rems A).length = A.length := by simp [rems]
      have h9 : (rems B).length = B.length := by simp [rems]
      rw [size_append, size_cons, List.length_append, List.length_cons, h6, h7, h8, h9] at h5
      rw [sizeL_append, sizeL_cons] at h4
      omega

/-- A move of the current clause, then the search for the next match. -/
theorem nearMove_spec (g : Good o R D) {e : NearE σ} {k : Caps} {c : Option Sp} {L : List Sp} (h : NearR R e k c L) {move : σ → Res (Bool × σ)}
    {f : List Sp → List Sp} (hsuf : ∀ K, (f K).Sublist K)
    (hmove : ∀ b : NG σ, R b.st b.k b.c b.L → Ord b.rem → b.k.skips = true → (c = none → b.c = none) → (∀ x, c = some x → AtDoc x.doc b) →
      ∃ r, move b.st = .ok r ∧ Stepped R D b.k r (f b.L))
    (hnear : ∀ A K B, (∀ C ∈ A ++ K :: B, Ord C) →
      f (near (stepOf e.inOrder e.slop) (A ++ K :: B)) = near (stepOf e.inOrder e.slop) (A ++ f K :: B)) :
    ∃ r, nearMove o move e = .ok r ∧ Stepped (NearR R) NearD k r (f L) := by
  have hst := stepOf_ok e.inOrder e.slop
  obtain ⟨hk, hft, h⟩ := h
  -- a common form of the two cases
  obtain ⟨A, b, B, he, hc, hbR, hbo, hbs, hbn, hbx, hoth, hL, hoK, d, hd, hdx⟩ : ∃ A b B, e.subs = sts (A ++ b :: B) ∧ e.current = A.length ∧ R b.st b.k b.c b.L ∧ Ord b.rem ∧
      b.k.skips = true ∧ (c = none → b.c = none) ∧ (∀ x, c = some x → AtDoc x.doc b) ∧ (∀ h ∈ A ++ B, NOK R h) ∧
      L = near (stepOf e.inOrder e.slop) (rems A ++ b.L :: rems B) ∧ (∀ C ∈ rems A ++ b.L :: rems B, Ord C) ∧
      ∃ d, (∀ h ∈ A ++ B, h.doc = d) ∧ ∀ x ∈ b.L, d ≤ x.doc := by
    cases c with
    | none =>
      obtain ⟨_, h1, b, gs, h2, h3, h4, h5⟩ := h
      have hb := h3 b (List.mem_cons_self ..)
      have hbr : b.rem = b.L := by simp [NG.rem, hb.1]
      have hrg : rems gs = gs.map NG.L := by
        refine List.map_congr_left fun a ha => ?_
        simp [NG.rem, (h3 a (List.mem_cons_of_mem _ ha)).1]
      refine ⟨[], b, gs, h2, h1, by rw [hb.1]; exact hb.2.1, by rw [hbr]; exact hb.2.2.1, hb.2.2.2, fun _ => hb.1, (fun _ h => nomatch h), ?_, ?_, ?_, -1, ?_, ?_⟩
      · intro a ha
        have ha' := h3 a (List.mem_cons_of_mem _ ha)
        refine ⟨by rw [ha'.1]; exact ha'.2.1, ?_, ha'.2.2.2, fun _ => h4 a ha⟩
        simp only [NG.rem, ha'.1, Option.toList_none, List.nil_append]
        exact ha'.2.2.1
      · rw [h5, hrg]; rfl
      · intro C hC
        rcases List.mem_cons.1 hC with rfl | hC
        · exact hb.2.2.1
        · rw [hrg] at hC
          obtain ⟨a, ha, rfl⟩ := List.mem_map.1 hC
          exact (h3 a (List.mem_cons_of_mem _ ha)).2.2.1
      · intro a ha
        simp [NG.doc, (h3 a (List.mem_cons_of_mem _ ha)).1]
      · intro x hx
        have := (hb.2.2.1.2 x hx).1
        omega
    | some x =>
      obtain ⟨h1, A, b, B, h2, h3, h4, h5, h6⟩ := h
      have hb := h4 b (by simp)
      refine ⟨A, b, B, h2, h3, hb.r, hb.ord, hb.sk, (fun h => nomatch h), (fun y hy => by cases hy; exact h5 b (by simp)), ?_, h6, ?_, x.doc, ?_, ?_⟩
      · intro a ha
        exact h4 a (by simp only [List.mem_append, List.mem_cons] at *; rcases ha with h | h; exact .inl h; exact .inr (.inr h))
      · intro K hK
        rcases List.mem_append.1 hK with h | h
        · exact rems_ord h4 K (by rw [rems_append]; exact List.mem_append_left _ h)
        · rcases List.mem_cons.1 h with rfl | h
          · exact ordL hb
          · exact rems_ord h4 K (by rw [rems_append]; exact List.mem_append_right _ (List.mem_cons_of_mem _ h))
      · intro a ha
        exact (h5 a (by simp only [List.mem_append, List.mem_cons] at *; rcases ha with h | h; exact .inl h; exact .inr (.inr h))).doc
      · exact ((h5 b (by simp)).ge hb).2
  unfold nearMove
  have hs : e.subs[e.current]? = some b.st := by rw [he, hc]; simp [sts]
  rw [hs]
  simp only [Res.ofOption, Res.ok_bind]
  obtain ⟨r, m1, m2⟩ := hmove b hbR hbo hbs hbn hbx
  rw [m1, Res.ok_bind, hL, hnear _ _ _ hoK, hc]
  have hofK : ∀ C ∈ rems A ++ f b.L :: rems B, Ord C := by
    intro C hC
    rcases List.mem_append.1 hC with h | h
    · exact hoK C (by simp [h])
    · rcases List.mem_cons.1 h with rfl | h
      · exact (hoK b.L (by simp)).sub (hsuf _)
      · exact hoK C (by simp [h])
  cases hf : f b.L with
  | nil =>
    rw [hf] at m2 hofK
    rw [m2.1, if_neg (by simp), near_none hst hofK align_nil]
    exact ⟨_, rfl, rfl, hk⟩
  | cons x K =>
    rw [hf] at m2 hofK
    rw [m2.1, if_pos rfl]
    let b' : NG σ := ⟨r.2, b.k, some x, K⟩
    have hb' : NOK R b' := ⟨m2.2, hofK (x :: K) (List.mem_append_right _ (List.mem_cons_self ..)), hbs, fun h => nomatch h⟩
    have hput : (NearE.put e A.length r.2).subs = sts (A ++ b' :: B) := put_spec (b' := b') he
    have hrem : rems A ++ (x :: K) :: rems B = rems (A ++ b' :: B) := by simp [rems, NG.rem, b']
    rw [hrem]
    refine nextMatch_spec (e := NearE.put e A.length r.2) g hk hput hc (fun h hh => ?_) (x := x) rfl hd (hdx x ((hsuf b.L).subset (by rw [hf]; exact List.mem_cons_self ..))) hft
    rcases mem_mid (a := b) hh with rfl | hh
    · exact hb'
    · exact hoth h hh.2

/-- The enumerator of a `near` query gives `near` of the spans of the clauses. -/
theorem good_near (g : Good o R D) : Good (nearOps o) (NearR R) NearD where
  left := fun h => nearR_left g h
  cur := fun h => by rw [nearOps]; exact congrArg Res.ok h.2.2.1
  early := fun h _ => ⟨_, rfl, h.2.2.1⟩
  next := fun {s k c L} h ho => by
    refine nearMove_spec g h (f := id) (fun K => List.Sublist.refl _) (fun b hR ho _ _ _ => g.next hR ho) (fun _ _ _ _ => rfl)
  skip := fun {s k c L t} h ho hs hb => by
    refine nearMove_spec g h (f := List.dropWhile (docLt t)) (fun K => List.dropWhile_sublist _) (fun b hR ho' hsk hn hx => ?_) (fun A K B ho => near_skip (stepOf_ok _ _) t ho)
    refine g.skip hR ho' hsk ?_
    cases c with
    | none => rw [hn rfl]; exact hb
    | some x =>
      obtain ⟨y, h1, h2⟩ := hx x rfl
      rw [h1]
      show y.doc < t
      rw [h2]
      exact hb
  late := fun h hl => by rw [show _ = false from h] at hl; cases hl

end Ferret.Span
