import Verif.Lemmas.SpanSteps

/-! The enumerator of the spans of a `near` query. -/

namespace Ferret.Span

open Ferret.Spec (SpLe SpLex Proper)
open Ferret.Phrase (intMax)

variable {σ : Type} {o : Ops σ} {R : σ → Caps → Option Sp → List Sp → Prop} {D : σ → Caps → Prop}

/-- A clause: its enumerator, where it is and what is ahead. -/
structure NG (σ : Type) where
  st : σ
  k : Caps
  c : Option Sp
  L : List Sp

def NG.rem (g : NG σ) : List Sp := g.c.toList ++ g.L

def NG.doc (g : NG σ) : Int := match g.c with | none => -1 | some x => x.doc

structure NOK (R : σ → Caps → Option Sp → List Sp → Prop) (g : NG σ) : Prop where
  r : R g.st g.k g.c g.L
  ord : Ord g.rem
  sk : g.k.skips = true
  early : g.c = none → g.k.early = true

def rems (gs : List (NG σ)) : List (List Sp) := gs.map NG.rem

def sts (gs : List (NG σ)) : List σ := gs.map NG.st

/-- The clause is at document `d`. -/
def AtDoc (d : Int) (g : NG σ) : Prop := ∃ x, g.c = some x ∧ x.doc = d

def sizeL (gs : List (NG σ)) : Nat := (gs.map fun g => g.L.length).sum

theorem AtDoc.doc {d : Int} {g : NG σ} (h : AtDoc d g) : g.doc = d := by
  obtain ⟨x, h1, h2⟩ := h
  simp [NG.doc, h1, h2]

theorem atDoc_of {g : NG σ} (h : 0 ≤ g.doc) : AtDoc g.doc g := by
  cases hc : g.c with
  | none => simp [NG.doc, hc] at h
  | some x => exact ⟨x, hc, by simp [NG.doc, hc]⟩

theorem sizeL_append (A B : List (NG σ)) : sizeL (A ++ B) = sizeL A + sizeL B := by simp [sizeL]

theorem sizeL_cons (g : NG σ) (B : List (NG σ)) : sizeL (g :: B) = g.L.length + sizeL B := by simp [sizeL]

theorem size_rems {d : Int} {gs : List (NG σ)} (h : ∀ g ∈ gs, AtDoc d g) : size (rems gs) = sizeL gs + gs.length := by
  induction gs with
  | nil => rfl
  | cons g gs ih =>
    obtain ⟨x, h1, _⟩ := h g (List.mem_cons_self ..)
    have := ih fun a ha => h a (List.mem_cons_of_mem _ ha)
    simp only [rems, List.map_cons, size_cons, NG.rem, h1, Option.toList_some, List.singleton_append, List.length_cons, sizeL_cons] at *
    omega

theorem sizeL_le (g : Good o R D) {gs : List (NG σ)} (h : ∀ g ∈ gs, NOK R g) : sizeL gs ≤ ((sts gs).map fun s => o.left s).sum := by
  induction gs with
  | nil => exact Nat.le_refl _
  | cons a gs ih =>
    have h1 := g.left (h a (List.mem_cons_self ..)).r
    have := ih fun a ha => h a (List.mem_cons_of_mem _ ha)
    simp only [sizeL_cons, sts, List.map_cons, List.sum_cons] at *
    omega

theorem al_rems {d : Int} {gs : List (NG σ)} (hne : gs ≠ []) (hok : ∀ g ∈ gs, NOK R g) (hd : ∀ g ∈ gs, AtDoc d g) : Al d (rems gs) := by
  refine ⟨by simpa [rems] using hne, ?_, ?_⟩
  · intro K hK
    obtain ⟨g, hg, rfl⟩ := List.mem_map.1 hK
    exact (hok g hg).ord
  · intro K hK
    obtain ⟨g, hg, rfl⟩ := List.mem_map.1 hK
    obtain ⟨x, h1, h2⟩ := hd g hg
    exact ⟨x, g.L, by simp [NG.rem, h1], h2⟩

theorem align_al {d : Int} {Ks : List (List Sp)} (h : Al d Ks) : align Ks = some (d, Ks) := by
  rw [align_some h.ord]
  refine ⟨h.ne, common_iff.2 fun K hK => ?_, fun d' hd' => low_common h.low h.ne hd', h.low.fix.symm⟩
  obtain ⟨x, K', rfl, e⟩ := h.doc K hK
  exact ⟨x, List.mem_cons_self .., e⟩

theorem rems_ord {gs : List (NG σ)} (h : ∀ g ∈ gs, NOK R g) : ∀ K ∈ rems gs, Ord K := by
  intro K hK
  obtain ⟨g, hg, rfl⟩ := List.mem_map.1 hK
  exact (h g hg).ord

theorem nearSub_spec (g : Good o R D) {e : NearE σ} {A B : List (NG σ)} {b : NG σ} (he : e.subs = sts (A ++ b :: B)) (hb : NOK R b) :
    ∃ y, nearSub o e A.length = .ok (b.st, y) ∧ y.doc = b.doc ∧ ∀ x, b.c = some x → y = x := by
  unfold nearSub
  have : e.subs[A.length]? = some b.st := by rw [he]; simp [sts]
  rw [this]
  simp only [Res.ofOption, Res.ok_bind]
  cases hc : b.c with
  | none =>
    have hr := hb.r
    rw [hc] at hr
    obtain ⟨y, h1, h2⟩ := g.early hr (hb.early hc)
    rw [h1]
    exact ⟨y, rfl, by simp [NG.doc, hc, h2], fun _ h => nomatch h⟩
  | some x =>
    have hr := hb.r
    rw [hc] at hr
    rw [g.cur hr]
    exact ⟨x, rfl, by simp [NG.doc, hc], fun _ h => by cases h; rfl⟩

theorem put_spec {e : NearE σ} {A B : List (NG σ)} {b b' : NG σ} (he : e.subs = sts (A ++ b :: B)) :
    (e.put A.length b'.st).subs = sts (A ++ b' :: B) := by
  simp only [NearE.put, he, sts, List.map_append, List.map_cons]
  rw [List.set_append_right _ _ (by simp)]
  simp

/-- Nothing else has changed. -/
def Same (e e' : NearE σ) : Prop := e'.slop = e.slop ∧ e'.inOrder = e.inOrder ∧ e'.firstTime = e.firstTime

/-- All clauses are at a document. -/
def FoundAt (R : σ → Caps → Option Sp → List Sp → Prop) (e e' : NearE σ) (p : Int × List (List Sp)) : Prop :=
  Same e e' ∧ ∃ gs, e'.subs = sts gs ∧ (∀ g ∈ gs, NOK R g) ∧ (∀ g ∈ gs, AtDoc p.1 g) ∧ rems gs = p.2

/-- The result of the search for a document of all clauses. -/
def Found (R : σ → Caps → Option Sp → List Sp → Prop) (e : NearE σ) (Ks : List (List Sp)) (r : Bool × NearE σ) : Prop :=
  match align Ks with
  | none => r.1 = false
  | some p => r.1 = true ∧ FoundAt R e r.2 p

theorem not_common_nil {A B : List (List Sp)} (d : Int) : common (A ++ [] :: B) d = false := by
  cases h : common (A ++ [] :: B) d with
  | false => rfl
  | true =>
    obtain ⟨x, hx, _⟩ := common_iff.1 h [] (by simp)
    cases hx

theorem align_nil {A B : List (List Sp)} : align (A ++ [] :: B) = none := (align_none (by simp)).2 not_common_nil

/-- A clause is at `p`: no common document is before. -/
theorem common_ge {gs : List (NG σ)} (hok : ∀ g ∈ gs, NOK R g) {p : Int} {l : NG σ} (hl : l ∈ gs) (hp : AtDoc p l) {d : Int}
    (hd : common (rems gs) d = true) : p ≤ d := by
  obtain ⟨x, h1, h2⟩ := hp
  obtain ⟨y, hy, rfl⟩ := common_iff.1 hd _ (List.mem_map_of_mem hl)
  have ho := (hok l hl).ord
  rw [NG.rem, h1] at hy ho
  simp only [Option.toList_some, List.singleton_append] at hy ho
  rcases List.mem_cons.1 hy with rfl | hy
  · omega
  · have := (List.pairwise_cons.1 ho.1).1 y hy
    unfold SpLe at this; omega

/-- A jump of a clause before `p`. -/
theorem jump_spec (g : Good o R D) {b : NG σ} (hb : NOK R b) {p : Int} (hp : b.doc < p) (h0 : 0 ≤ p) :
    ∃ r, o.skipTo b.st p = .ok r ∧ Stepped R D b.k r (b.rem.dropWhile (docLt p)) ∧ (b.rem.dropWhile (docLt p)) = b.L.dropWhile (docLt p) := by
  have hbf : Before p b.c := by
    cases hc : b.c with
    | none => exact h0
    | some x =>
      rw [NG.doc, hc] at hp
      exact hp
  have e : b.rem.dropWhile (docLt p) = b.L.dropWhile (docLt p) := by
    unfold NG.rem
    cases hc : b.c with
    | none => rfl
    | some x =>
      simp only [NG.doc, hc] at hp
      simp only [Option.toList_some, List.singleton_append]
      rw [List.dropWhile_cons_of_pos (by simpa [docLt] using hp)]
  obtain ⟨r, h1, h2⟩ := g.skip (t := p) hb.r hb.ord hb.sk hbf
  exact ⟨r, h1, by rw [e]; exact h2, e⟩

theorem gotoLoop_spec (g : Good o R D) : ∀ (fuel : Nat) (A : List (NG σ)) (b : NG σ) (B : List (NG σ)) (e : NearE σ) (p : Int),
    e.subs = sts (A ++ b :: B) → e.current = A.length → (∀ h ∈ A ++ b :: B, NOK R h) →
    ((b :: B) ++ A).Pairwise (fun a c => a.doc ≤ c.doc) → (∀ h ∈ A ++ b :: B, h.doc ≤ p) → (∃ l ∈ A ++ b :: B, AtDoc p l) → 0 ≤ p →
    sizeL (A ++ b :: B) < fuel → ∃ r, gotoLoop o fuel e p = .ok r ∧ Found R e (rems (A ++ b :: B)) r
  | 0, _, _, _, _, _, _, _, _, _, _, _, _, h => by omega
  | fuel + 1, A, b, B, e, p, he, hc, hok, hring, hle, hl, h0, hf => by
    have hb := hok b (by simp)
    unfold gotoLoop
    obtain ⟨y, h1, h2, _⟩ := nearSub_spec g he hb
    rw [hc, h1, Res.ok_bind]
    dsimp only
    rw [h2]
    obtain ⟨l, hl1, hl2⟩ := hl
    by_cases hlt : b.doc < p
    · rw [if_pos hlt]
      obtain ⟨r, h3, h4, h5⟩ := jump_spec g hb hlt h0
      rw [h3, Res.ok_bind]
      have hal : align (rems (A ++ b :: B)) = align (rems A ++ b.rem.dropWhile (docLt p) :: rems B) := by
        have := align_drop (A := rems A) (K := b.rem) (B := rems B) (t := p) (by
          have := rems_ord hok
          simpa [rems] using this) (fun d hd => common_ge hok hl1 hl2 (by simpa [rems] using hd))
        simpa [rems] using this
      cases hK : b.rem.dropWhile (docLt p) with
      | nil =>
        rw [hK] at h4 hal
        rw [h4.1, if_neg (by simp)]
        refine ⟨_, rfl, ?_⟩
        unfold Found
        rw [hal, align_nil]
      | cons x K =>
        rw [hK] at h4 hal
        rw [h4.1, if_pos rfl, g.cur h4.2, Res.ok_bind]
        -- the clause after the jump
        have hxp : p ≤ x.doc := by
          have := List.head?_dropWhile_not (docLt p) b.rem
          rw [hK] at this
          simpa [docLt] using this
        have hord : Ord (x :: K) := by rw [← hK]; exact hb.ord.sub (List.dropWhile_sublist _)
        let b' : NG σ := ⟨r.2, b.k, some x, K⟩
        have hb' : NOK R b' := ⟨h4.2, hord, hb.sk, fun h => nomatch h⟩
        have hbr : b'.rem = x :: K := rfl
        have hbd : b'.doc = x.doc := rfl
        have hsub := put_spec (b' := b') he
        have hok' : ∀ h ∈ A ++ b' :: B, NOK R h := by
          intro h hh
          rcases List.mem_append.1 hh with hh | hh
          · exact hok h (by simp [hh])
          · rcases List.mem_cons.1 hh with rfl | hh
            · exact hb'
            · exact hok h (by simp [hh])
        have hle' : ∀ h ∈ A ++ b' :: B, h.doc ≤ x.doc := by
          intro h hh
          rcases List.mem_append.1 hh with hh | hh
          · have := hle h (by simp [hh]); omega
          · rcases List.mem_cons.1 hh with rfl | hh
            · exact Int.le_refl _
            · have := hle h (by simp [hh]); omega
        have hring' : (B ++ A ++ [b']).Pairwise (fun a c => a.doc ≤ c.doc) := by
          rw [List.pairwise_append]
          refine ⟨?_, by simp, ?_⟩
          · simp only [List.cons_append, List.pairwise_cons] at hring
            exact hring.2
          · intro a ha c hc
            rw [List.mem_singleton.1 hc, hbd]
            rcases List.mem_append.1 ha with h | h
            · exact hle' a (by simp [h])
            · exact hle' a (by simp [h])
        have hsz : sizeL (A ++ b' :: B) < fuel := by
          have h6 : (x :: K).length ≤ b.L.length := by
            rw [← hK, h5]
            exact (List.dropWhile_sublist _).length_le
          simp only [sizeL_append, sizeL_cons, List.length_cons] at *
          have : b'.L.length = K.length := rfl
          omega
        have hrem : rems (A ++ b' :: B) = rems A ++ (x :: K) :: rems B := by simp [rems, hbr]
        have hmem : ∃ l ∈ A ++ b' :: B, AtDoc x.doc l := ⟨b', by simp, x, rfl, rfl⟩
        unfold Found
        rw [hal, ← hrem]
        have hlen : e.subs.length = A.length + (B.length + 1) := by rw [he]; simp [sts]
        cases B with
        | cons c B =>
          have hfol : (e.put A.length r.2).following = (A ++ [b']).length := by
            unfold NearE.following NearE.put
            simp only [List.length_set, hlen, hc, List.length_append, List.length_cons, List.length_nil]
            rw [Nat.mod_eq_of_lt (by omega)]
          rw [hfol]
          exact gotoLoop_spec g fuel (A ++ [b']) c B { e.put A.length r.2 with current := (A ++ [b']).length } x.doc
            (by rw [List.append_assoc]; exact hsub) rfl (by simpa using hok') (by simpa using hring') (by simpa using hle')
            (by simpa using hmem) (by omega) (by simpa using hsz) |>.imp fun r hr => ⟨hr.1, by
              have := hr.2
              rw [List.append_assoc] at this
              exact this⟩
        | nil =>
          have hfol : (e.put A.length r.2).following = 0 := by
            unfold NearE.following NearE.put
            simp only [List.length_set, hlen, hc, List.length_nil]
            exact Nat.mod_self _
          rw [hfol]
          cases A with
          | nil =>
            exact gotoLoop_spec g fuel [] b' [] { e.put 0 r.2 with current := 0 } x.doc hsub rfl hok' (by simp) hle' hmem (by omega) hsz
          | cons a A =>
            exact gotoLoop_spec g fuel [] a (A ++ [b']) { e.put (a :: A).length r.2 with current := 0 } x.doc hsub rfl hok' (by simpa using hring')
              hle' hmem (by omega) hsz
    · rw [if_neg hlt]
      refine ⟨_, rfl, ?_⟩
      have hbp : b.doc = p := by have := hle b (by simp); omega
      have hall : ∀ h ∈ A ++ b :: B, AtDoc p h := by
        intro h hh
        have h6 : h.doc = p := by
          have h7 := hle h hh
          rw [List.cons_append, List.pairwise_cons] at hring
          rcases List.mem_append.1 hh with hh | hh
          · have := hring.1 h (by simp [hh]); omega
          · rcases List.mem_cons.1 hh with rfl | hh
            · exact hbp
            · have := hring.1 h (by simp [hh]); omega
        have := atDoc_of (g := h) (by omega)
        rwa [h6] at this
      unfold Found
      rw [align_al (al_rems (by simp) hok hall)]
      exact ⟨rfl, ⟨rfl, rfl, rfl⟩, _, he, hok, hall, rfl⟩

theorem gotoNextDoc_spec (g : Good o R D) {A B : List (NG σ)} {b : NG σ} {e : NearE σ} (he : e.subs = sts (A ++ b :: B)) (hc : e.current = A.length)
    (hok : ∀ h ∈ A ++ b :: B, NOK R h) {d : Int} (hd : ∀ h ∈ A ++ B, h.doc = d) (hb : d ≤ b.doc) (h0 : 0 ≤ b.doc) :
    ∃ r, gotoNextDoc o e = .ok r ∧ Found R e (rems (A ++ b :: B)) r := by
  unfold gotoNextDoc
  obtain ⟨y, h1, h2, _⟩ := nearSub_spec g he (hok b (by simp))
  rw [hc, h1, Res.ok_bind]
  dsimp only
  rw [h2]
  have hring : (B ++ A ++ [b]).Pairwise (fun a c => a.doc ≤ c.doc) := by
    refine List.pairwise_append.2 ⟨List.pairwise_of_forall_mem_list fun a ha c hc => ?_, by simp, fun a ha c hc => ?_⟩
    · rw [hd a (by simp only [List.mem_append] at *; exact ha.symm), hd c (by simp only [List.mem_append] at *; exact hc.symm)]
      exact Int.le_refl _
    · rw [List.mem_singleton.1 hc, hd a (by simp only [List.mem_append] at *; exact ha.symm)]
      exact hb
  have hle : ∀ h ∈ A ++ b :: B, h.doc ≤ b.doc := by
    intro h hh
    rcases List.mem_append.1 hh with hh | hh
    · rw [hd h (by simp [hh])]; exact hb
    · rcases List.mem_cons.1 hh with rfl | hh
      · exact Int.le_refl _
      · rw [hd h (by simp [hh])]; exact hb
  have hmem : ∃ l ∈ A ++ b :: B, AtDoc b.doc l := ⟨b, by simp, atDoc_of h0⟩
  have hlen : e.subs.length = A.length + (B.length + 1) := by rw [he]; simp [sts]
  have hsz : sizeL (A ++ b :: B) < nearLeft o e + 1 := by
    have := sizeL_le g hok
    rw [← he] at this
    exact Nat.lt_succ_of_le this
  cases B with
  | cons c B =>
    have hfol : e.following = (A ++ [b]).length := by
      unfold NearE.following
      simp only [hlen, hc, List.length_append, List.length_cons, List.length_nil]
      rw [Nat.mod_eq_of_lt (by omega)]
    rw [hfol]
    obtain ⟨r, g1, g2⟩ := gotoLoop_spec g (nearLeft o e + 1) (A ++ [b]) c B { e with current := (A ++ [b]).length } b.doc
      (by rw [List.append_assoc]; exact he) rfl (by simpa using hok) (by simpa using hring) (by simpa using hle)
      (by simpa using hmem) h0 (by simpa using hsz)
    refine ⟨r, g1, ?_⟩
    rw [List.append_assoc] at g2
    exact g2
  | nil =>
    have hfol : e.following = 0 := by
      unfold NearE.following
      simp only [hlen, hc, List.length_nil]
      exact Nat.mod_self _
    rw [hfol]
    cases A with
    | nil => exact gotoLoop_spec g (nearLeft o e + 1) [] b [] { e with current := 0 } b.doc he rfl hok (by simp) hle hmem h0 hsz
    | cons a A => exact gotoLoop_spec g (nearLeft o e + 1) [] a (A ++ [b]) { e with current := 0 } b.doc he rfl hok (by simpa using hring) hle hmem h0 hsz

end Ferret.Span
