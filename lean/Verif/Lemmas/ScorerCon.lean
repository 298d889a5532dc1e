import Verif.Lemmas.ScorerDis

/-! The conjunction scorer keeps the `next` part of the contract. -/

namespace Ferret.Scorer

variable {σ ρ ε S α : Type} {P : Prop}

/-- The list seen from index `k` on, cyclically. -/
def rotL (k : Nat) (l : List α) : List α := l.drop k ++ l.take k

theorem rotL_split (a b : List α) (h : α) : rotL a.length (a ++ h :: b) = h :: (b ++ a) := by
  simp [rotL]

theorem split_at {l : List α} {k : Nat} (hk : k < l.length) :
    ∃ a h b, l = a ++ h :: b ∧ a.length = k :=
  ⟨l.take k, l[k], l.drop (k + 1), by simp, by simp; omega⟩

theorem rotL_head {l : List α} {k : Nat} (hk : k < l.length) : l[k]? = (rotL k l).head? := by
  obtain ⟨a, h, b, rfl, rfl⟩ := split_at hk
  rw [rotL_split]; simp

theorem mod_pos {k n : Nat} (h0 : 0 < k) (hk : k < n) : (k + n - 1) % n = k - 1 := by
  rw [show k + n - 1 = (k - 1) + n by omega, Nat.add_mod_right, Nat.mod_eq_of_lt (by omega)]

theorem rotL_prev {l : List α} {k : Nat} (hk : k < l.length) :
    l[(k + l.length - 1) % l.length]? = (rotL k l).getLast? := by
  by_cases h0 : k = 0
  · subst h0
    have : (0 + l.length - 1) % l.length = l.length - 1 := by
      rw [Nat.zero_add]; exact Nat.mod_eq_of_lt (by omega)
    rw [this, show rotL 0 l = l by simp [rotL], List.getLast?_eq_getElem?]
  · rw [mod_pos (by omega) hk]
    unfold rotL
    rw [List.getLast?_append]
    have h1 : (l.take k).getLast? = l[k - 1]? := by
      rw [List.getLast?_eq_getElem?]
      simp only [List.length_take]
      rw [List.getElem?_take, Nat.min_eq_left (by omega), if_pos (by omega)]
    rw [h1, List.getElem?_eq_getElem (by omega)]
    rfl

theorem rotL_set_first {l : List α} {k : Nat} (hk : k < l.length) (x : α) :
    rotL ((k + 1) % l.length) (l.set k x) = (rotL k l).tail ++ [x] := by
  obtain ⟨a, h, b, rfl, rfl⟩ := split_at hk
  rw [rotL_split]
  have hs : (a ++ h :: b).set a.length x = a ++ x :: b := by simp
  rw [hs]
  by_cases hb : b = []
  · subst hb
    have : (a.length + 1) % (a ++ [h]).length = 0 := by simp
    rw [this]; simp [rotL]
  · have hl : 0 < b.length := List.length_pos_iff.mpr hb
    have : (a.length + 1) % (a ++ h :: b).length = a.length + 1 := Nat.mod_eq_of_lt (by simp; omega)
    rw [this]
    have e : a ++ x :: b = (a ++ [x]) ++ b := by simp
    rw [e]
    obtain ⟨c, cs, rfl⟩ : ∃ c cs, b = c :: cs := by
      cases b with
      | nil => exact absurd rfl hb
      | cons c cs => exact ⟨c, cs, rfl⟩
    have := rotL_split (a ++ [x]) cs c
    simp only [List.length_append, List.length_singleton] at this
    rw [this]; simp

theorem rotL_set_prev {l : List α} {k : Nat} (hk : k < l.length) (x : α) :
    rotL k (l.set ((k + l.length - 1) % l.length) x) = (rotL k l).dropLast ++ [x] := by
  by_cases h0 : k = 0
  · subst h0
    have : (0 + l.length - 1) % l.length = l.length - 1 := by
      rw [Nat.zero_add]; exact Nat.mod_eq_of_lt (by omega)
    rw [this]
    simp only [rotL, List.drop_zero, List.take_zero, List.append_nil]
    have hne : l ≠ [] := by intro h; subst h; simp at hk
    have hl : l = l.dropLast ++ [l.getLast hne] := (List.dropLast_concat_getLast hne).symm
    have hlen : l.length - 1 = l.dropLast.length := by simp
    conv => lhs; rw [hlen]
    conv => lhs; rw [hl]
    simp
  · rw [mod_pos (by omega) hk]
    unfold rotL
    have hne : l.take k ≠ [] := by
      intro h
      have h2 : (l.take k).length = 0 := by rw [h]; rfl
      simp only [List.length_take] at h2
      omega
    rw [List.drop_set_of_lt (by omega), List.take_set, List.dropLast_append_of_ne_nil hne, List.append_assoc]
    congr 1
    have hl : (l.take k).set (k - 1) x = ((l.take k).dropLast ++ [(l.take k).getLast hne]).set (k - 1) x := by
      rw [List.dropLast_concat_getLast hne]
    have hlen : k - 1 = (l.take k).dropLast.length := by simp; omega
    rw [hl]
    conv => lhs; rw [hlen]
    simp

theorem rotL_mem {l : List α} {k : Nat} {x : α} : x ∈ rotL k l ↔ x ∈ l := by
  unfold rotL
  rw [List.mem_append]
  constructor
  · rintro (h | h)
    · exact List.mem_of_mem_drop h
    · exact List.mem_of_mem_take h
  · intro h
    rw [← List.take_append_drop k l] at h
    exact (List.mem_append.mp h).symm

/-- Fuel measure of a list of entries. -/
def cLeft (o : Ops σ S) (E : List (Ent σ S)) : Nat := (E.map (fun e => o.left e.st)).sum

theorem cLeft_set {o : Ops σ S} {E : List (Ent σ S)} {k : Nat} {e e' : Ent σ S} (h : E[k]? = some e) :
    cLeft o (E.set k e') + o.left e.st = cLeft o E + o.left e'.st := by
  induction E generalizing k with
  | nil => simp at h
  | cons x xs ih =>
    cases k with
    | zero =>
      simp at h; subst h
      simp [cLeft]; omega
    | succ k =>
      simp only [List.getElem?_cons_succ] at h
      have := ih h
      simp only [cLeft, List.set_cons_succ, List.map_cons, List.sum_cons] at this ⊢
      omega

theorem cLeft_map (o : Ops σ S) (E : List (Ent σ S)) : (E.map (·.st)).map o.left = E.map (fun e => o.left e.st) := by
  simp [List.map_map, Function.comp_def]

theorem map_v_set {E : List (Ent σ S)} {k : Nat} {e e' : Ent σ S} (h : E[k]? = some e) (hv : e'.v = e.v) :
    (E.set k e').map (·.v) = E.map (·.v) := by
  rw [List.map_set, hv]
  apply List.ext_getElem?
  intro i
  by_cases hi : k = i
  · subst hi
    have hlt : k < E.length := (List.getElem?_eq_some_iff.mp h).1
    rw [List.getElem?_set_self (by simpa using hlt), List.getElem?_map, h]; rfl
  · rw [List.getElem?_set_ne hi]

/-- Every view contains `x`. -/
def InAll (us : List (View S)) (x : Int) : Prop := ∀ u ∈ us, u.docs x = true

/-- Invariant of the entries while looking for the first common document after `lo`. -/
structure ConInv (R : σ → View S → Int → Bool → Prop) (us : List (View S)) (lo : Int) (E : List (Ent σ S)) : Prop where
  views : E.map (·.v) = us
  rep : ∀ e ∈ E, 0 ≤ e.pos ∧ ∃ f, R e.st e.v e.pos f ∧ (lo < e.pos → f = false)
  below : ∀ x, InAll us x → lo < x → ∀ e ∈ E, e.pos ≤ x

theorem ConInv.inAll {R : σ → View S → Int → Bool → Prop} {us lo E} (h : ConInv R us lo E) {e : Ent σ S} (he : e ∈ E) {x}
    (hx : InAll us x) : e.v.docs x = true := hx e.v (by rw [← h.views]; exact List.mem_map_of_mem he)

theorem ConInv.set {R : σ → View S → Int → Bool → Prop} {us lo E} (h : ConInv R us lo E) {k : Nat} {e e' : Ent σ S}
    (hk : E[k]? = some e) (hv : e'.v = e.v) (h0 : 0 ≤ e'.pos) (hr : R e'.st e'.v e'.pos false)
    (hb : ∀ x, InAll us x → lo < x → e'.pos ≤ x) : ConInv R us lo (E.set k e') := by
  refine ⟨by rw [map_v_set hk hv]; exact h.views, fun w hw => ?_, fun x hx hl w hw => ?_⟩
  · rcases List.mem_or_eq_of_mem_set hw with h1 | rfl
    · exact h.rep w h1
    · exact ⟨h0, false, hr, fun _ => rfl⟩
  · rcases List.mem_or_eq_of_mem_set hw with h1 | rfl
    · exact h.below x hx hl w h1
    · exact hb x hx hl

theorem pairwise_last {l : List (Ent σ S)} (hs : l.Pairwise (fun a b => a.pos ≤ b.pos)) {z : Ent σ S} (hz : l.getLast? = some z) :
    ∀ e ∈ l, e.pos ≤ z.pos := by
  intro e he
  obtain ⟨ys, rfl⟩ := List.getLast?_eq_some_iff.mp hz
  rw [List.pairwise_append] at hs
  rcases List.mem_append.mp he with h1 | h1
  · exact hs.2.2 e h1 z (by simp)
  · simp at h1; subst h1; exact Int.le_refl _

theorem pairwise_head {l : List (Ent σ S)} (hs : l.Pairwise (fun a b => a.pos ≤ b.pos)) {z : Ent σ S} (hz : l.head? = some z) :
    ∀ e ∈ l, z.pos ≤ e.pos := by
  intro e he
  cases l with
  | nil => simp at hz
  | cons a l =>
    simp at hz; subst hz
    rcases List.mem_cons.mp he with rfl | h1
    · exact Int.le_refl _
    · exact (List.pairwise_cons.mp hs).1 e h1

/-- What the search loop establishes. -/
def ConFound (R : σ → View S → Int → Bool → Prop) (us : List (View S)) (lo : Int) (c c' : Con σ) (o : Ops σ S) (bound : Nat) : Prop :=
  c'.more = true ∧ ∃ d E, InAll us d ∧ lo < d ∧ (∀ x, InAll us x → lo < x → d ≤ x) ∧ c'.subs = E.map (·.st) ∧
    E.map (·.v) = us ∧ (∀ e ∈ E, R e.st e.v d false ∧ 0 ≤ d) ∧ c'.doc = d ∧ c'.firstIdx < E.length ∧
    c'.firstTime = c.firstTime ∧ c'.lastScored = c.lastScored ∧ cLeft o E ≤ bound

theorem conLoop_spec {o : Ops σ S} {R} (g : Good P o R) (us : List (View S)) (hsk : ∀ u ∈ us, u.skips = true) (lo : Int) :
    ∀ (fuel : Nat) (c : Con σ) (E : List (Ent σ S)), cLeft o E + 2 ≤ fuel → c.more = true →
      c.subs = E.map (·.st) → c.firstIdx < E.length → ConInv R us lo E →
      (rotL c.firstIdx E).Pairwise (fun a b => a.pos ≤ b.pos) →
      (∀ z, (rotL c.firstIdx E).getLast? = some z → lo < z.pos) →
      ∃ c', conLoop o fuel c = .ok c' ∧
        (ConFound R us lo c c' o (cLeft o E) ∨ (c'.more = false ∧ ∀ x, InAll us x → x ≤ lo)) := by
  intro fuel
  induction fuel with
  | zero => intro c E h; omega
  | succ n ih =>
    intro c E hf hm hsub hk hinv hsort hlast
    have hne : rotL c.firstIdx E ≠ [] := by
      intro h
      have h2 := rotL_head hk
      rw [h, List.getElem?_eq_getElem hk] at h2; cases h2
    obtain ⟨f, hfh⟩ : ∃ f, (rotL c.firstIdx E).head? = some f := by
      cases hh : rotL c.firstIdx E with
      | nil => exact absurd hh hne
      | cons a l => exact ⟨a, rfl⟩
    obtain ⟨z, hz⟩ : ∃ z, (rotL c.firstIdx E).getLast? = some z :=
      ⟨_, List.getLast?_eq_some_getLast hne⟩
    have hEf : E[c.firstIdx]? = some f := by rw [rotL_head hk, hfh]
    have hEz : E[(c.firstIdx + E.length - 1) % E.length]? = some z := by rw [rotL_prev hk, hz]
    have hfm : f ∈ E := List.mem_of_getElem? hEf
    have hzm : z ∈ E := List.mem_of_getElem? hEz
    obtain ⟨hf0, ff, hfR, _⟩ := hinv.rep f hfm
    obtain ⟨hz0, zf, hzR, _⟩ := hinv.rep z hzm
    have hzlo := hlast z hz
    have hfz : f.pos ≤ z.pos := pairwise_last hsort hz f (rotL_mem.mpr hfm)
    unfold conLoop
    have hs1 : c.subs[c.firstIdx]? = some f.st := by rw [hsub, List.getElem?_map, hEf]; rfl
    have hs2 : c.subs[(c.firstIdx + c.subs.length - 1) % c.subs.length]? = some z.st := by
      rw [hsub, List.length_map, List.getElem?_map, hEz]; rfl
    rw [hs1, hs2]
    simp only [hm, g.doc hfR hf0, g.doc hzR hz0, true_and]
    by_cases hlt : f.pos < z.pos
    · rw [if_pos hlt]
      obtain ⟨r, r1, r2⟩ := g.skip hfR (hsk f.v (by rw [← hinv.views]; exact List.mem_map_of_mem hfm)) hlt
      rw [r1, Res.ok_bind]
      rcases r2 with ⟨e1, d, e2, e3, e4⟩ | ⟨e1, e2⟩
      · have hd := e2.2.1
        let f' : Ent σ S := ⟨r.2, f.v, d⟩
        have hset : c.subs.set c.firstIdx r.2 = (E.set c.firstIdx f').map (·.st) := by rw [hsub, List.map_set]
        have hl := cLeft_set (o := o) (e' := f') hEf
        have hl' : cLeft o (E.set c.firstIdx f') < cLeft o E := by
          have : o.left f'.st = o.left r.2 := rfl
          omega
        have hrot := rotL_set_first hk f'
        have hlen : (E.set c.firstIdx f').length = E.length := by simp
        have hmod : (c.firstIdx + 1) % E.length < E.length := Nat.mod_lt _ (by omega)
        have hclen : c.subs.length = E.length := by rw [hsub]; simp
        have hinv' : ConInv R us lo (E.set c.firstIdx f') :=
          hinv.set hEf rfl (show 0 ≤ d by omega) e3 (fun x hx hl => e2.2.2 x (hinv.inAll hfm hx) (by
            have := hinv.below x hx hl z hzm; omega))
        have hsort' : (rotL ((c.firstIdx + 1) % c.subs.length) (E.set c.firstIdx f')).Pairwise (fun a b => a.pos ≤ b.pos) := by
          rw [hclen, hrot, List.pairwise_append]
          refine ⟨hsort.sublist (List.tail_sublist _), by simp, ?_⟩
          intro a ha b hb
          simp only [List.mem_singleton] at hb
          subst hb
          have := pairwise_last hsort hz a (List.mem_of_mem_tail ha)
          show a.pos ≤ d
          omega
        obtain ⟨c', w1, w2⟩ := ih { c with subs := c.subs.set c.firstIdx r.2, more := r.1, firstIdx := (c.firstIdx + 1) % c.subs.length }
          (E.set c.firstIdx f') (by omega) e1 hset (by simp only [hclen, hlen]; exact hmod) hinv' hsort' (by
            intro z' hz'
            simp only [hclen] at hz'
            rw [hrot, List.getLast?_append] at hz'
            simp only [List.getLast?_singleton, Option.some_or, Option.some.injEq] at hz'
            rw [← hz']
            show lo < d
            omega)
        refine ⟨c', w1, ?_⟩
        rcases w2 with h | h
        · left
          obtain ⟨a1, d, E', a2, a3, a4, a5, a6, a7, a8, a9, a10, a11, a12⟩ := h
          exact ⟨a1, d, E', a2, a3, a4, a5, a6, a7, a8, a9, a10, a11, by omega⟩
        · exact .inr h
      · have hnone : ∀ x, InAll us x → x ≤ lo := by
          intro x hx
          by_cases hl : lo < x
          · have h1 := hinv.below x hx hl z hzm
            have h2 := e2 x (hinv.inAll hfm hx)
            omega
          · omega
        have hclen : c.subs.length = E.length := by rw [hsub]; simp
        have hmod : (c.firstIdx + 1) % E.length < E.length := Nat.mod_lt _ (by omega)
        obtain ⟨m, rfl⟩ : ∃ m, n = m + 1 := ⟨n - 1, by omega⟩
        unfold conLoop
        have hlen2 : (c.subs.set c.firstIdx r.2).length = E.length := by simp [hclen]
        simp only [hlen2, hclen]
        have hmod2 : ((c.firstIdx + 1) % E.length + E.length - 1) % E.length < E.length := Nat.mod_lt _ (by omega)
        rw [List.getElem?_eq_getElem (by rw [hlen2]; exact hmod), List.getElem?_eq_getElem (by rw [hlen2]; exact hmod2)]
        simp only [e1]
        rw [if_neg (by simp)]
        exact ⟨_, rfl, .inr ⟨rfl, hnone⟩⟩
    · rw [if_neg hlt]
      have heq : f.pos = z.pos := by omega
      have hall : ∀ e ∈ E, e.pos = z.pos := by
        intro e he
        have h1 := pairwise_last hsort hz e (rotL_mem.mpr he)
        have h2 := pairwise_head hsort hfh e (rotL_mem.mpr he)
        omega
      refine ⟨_, rfl, .inl ⟨rfl, z.pos, E, ?_, hzlo, fun x hx hl => hinv.below x hx hl z hzm, hsub, hinv.views, ?_, heq, hk, rfl, rfl, Nat.le_refl _⟩⟩
      · intro u hu
        rw [← hinv.views] at hu
        obtain ⟨e, he, rfl⟩ := List.mem_map.mp hu
        obtain ⟨h0, fl, hR, _⟩ := hinv.rep e he
        have := (g.lo hR).2 h0
        rwa [hall e he] at this
      · intro e he
        obtain ⟨h0, fl, hR, hfl⟩ := hinv.rep e he
        have h1 := hall e he
        have : fl = false := hfl (by omega)
        subst this
        exact ⟨by rw [← h1]; exact hR, by omega⟩

theorem conSort_spec {o : Ops σ S} {R} (g : Good P o R) (us : List (View S)) (hsk : ∀ u ∈ us, u.skips = true) (lo : Int) :
    ∀ (rest : List (Ent σ S)) (done : List (Ent σ S)) (prev : Ent σ S),
      ConInv R us lo (done ++ prev :: rest) →
      (done ++ [prev]).Pairwise (fun a b => a.pos ≤ b.pos) →
      ∃ r, conSort o (done.map (·.st)) prev.st (rest.map (·.st)) = .ok r ∧
        ((r.1 = true ∧ ∃ E, r.2 = E.map (·.st) ∧ ConInv R us lo E ∧ E.Pairwise (fun a b => a.pos ≤ b.pos) ∧
            E.length = (done ++ prev :: rest).length ∧ cLeft o E ≤ cLeft o (done ++ prev :: rest) ∧
            (∀ e ∈ E, (∀ e' ∈ done ++ prev :: rest, lo < e'.pos) → lo < e.pos)) ∨
         (r.1 = false ∧ r.2.length = (done ++ prev :: rest).length ∧ ∀ x, InAll us x → x ≤ lo)) := by
  intro rest
  induction rest with
  | nil =>
    intro done prev hinv hs
    exact ⟨_, rfl, .inl ⟨rfl, done ++ [prev], by simp, hinv, hs, rfl, Nat.le_refl _, fun e he h => h e he⟩⟩
  | cons cur rest ih =>
    intro done prev hinv hs
    simp only [List.map_cons]
    unfold conSort
    have hpm : prev ∈ done ++ prev :: cur :: rest := by simp
    have hcm : cur ∈ done ++ prev :: cur :: rest := by simp
    obtain ⟨hp0, pf, hpR, _⟩ := hinv.rep prev hpm
    obtain ⟨hc0, cf, hcR, _⟩ := hinv.rep cur hcm
    rw [g.doc hpR hp0, g.doc hcR hc0]
    have hle : ∀ a ∈ done ++ [prev], a.pos ≤ prev.pos := by
      intro a ha
      rw [List.pairwise_append] at hs
      rcases List.mem_append.mp ha with h1 | h1
      · exact hs.2.2 a h1 prev (by simp)
      · simp at h1; subst h1; exact Int.le_refl _
    have hsort' : ∀ w : Ent σ S, prev.pos ≤ w.pos → (done ++ [prev] ++ [w]).Pairwise (fun a b => a.pos ≤ b.pos) := by
      intro w hw
      rw [List.pairwise_append]
      refine ⟨hs, by simp, fun a ha b hb => ?_⟩
      simp only [List.mem_singleton] at hb
      subst hb
      have := hle a ha; omega
    by_cases hgt : prev.pos > cur.pos
    · rw [if_pos hgt]
      obtain ⟨r, r1, r2⟩ := g.skip hcR (hsk cur.v (by rw [← hinv.views]; exact List.mem_map_of_mem hcm)) (n := prev.pos) (by omega)
      rw [r1, Res.ok_bind]
      rcases r2 with ⟨e1, d, e2, e3, e4⟩ | ⟨e1, e2⟩
      · rw [if_pos e1]
        have hd := e2.2.1
        let cur' : Ent σ S := ⟨r.2, cur.v, d⟩
        have hk : (done ++ prev :: cur :: rest)[done.length + 1]? = some cur := by simp
        have hset : (done ++ prev :: cur :: rest).set (done.length + 1) cur' = (done ++ [prev]) ++ cur' :: rest := by simp
        have hinv' : ConInv R us lo ((done ++ [prev]) ++ cur' :: rest) := by
          rw [← hset]
          exact hinv.set hk rfl (show 0 ≤ d by omega) e3 (fun x hx hl => e2.2.2 x (hinv.inAll hcm hx) (by
            have := hinv.below x hx hl prev hpm; omega))
        obtain ⟨q, q1, q2⟩ := ih (done ++ [prev]) cur' hinv' (hsort' cur' (by show prev.pos ≤ d; omega))
        refine ⟨q, by simpa using q1, ?_⟩
        have hl := cLeft_set (o := o) (e' := cur') hk
        rw [hset] at hl
        have : o.left cur'.st = o.left r.2 := rfl
        rcases q2 with ⟨a1, E, a2, a3, a4, a5, a6, a7⟩ | ⟨a1, a2, a3⟩
        · refine .inl ⟨a1, E, a2, a3, a4, by simpa using a5, by omega, fun e he h => a7 e he ?_⟩
          intro e' he'
          rcases List.mem_append.mp he' with h1 | h1
          · rcases List.mem_append.mp h1 with h2 | h2
            · exact h e' (by simp [h2])
            · simp at h2; subst h2; exact h e' hpm
          · rcases List.mem_cons.mp h1 with rfl | h2
            · have := h prev hpm; show lo < d; omega
            · exact h e' (by simp [h2])
        · exact .inr ⟨a1, by simpa using a2, a3⟩
      · rw [if_neg (by simp [e1])]
        refine ⟨_, rfl, .inr ⟨rfl, by simp, fun x hx => ?_⟩⟩
        by_cases hl : lo < x
        · have h1 := hinv.below x hx hl prev hpm
          have h2 := e2 x (hinv.inAll hcm hx)
          omega
        · omega
    · rw [if_neg hgt]
      obtain ⟨q, q1, q2⟩ := ih (done ++ [prev]) cur (by simpa using hinv) (hsort' cur (by omega))
      refine ⟨q, by simpa using q1, ?_⟩
      simpa using q2

/-- Moving every sub-scorer once (`next`, or `skip_to n`). -/
theorem conAll_spec {o : Ops σ S} {R : σ → View S → Int → Bool → Prop} (f : σ → Res (Bool × σ)) (lo : Int) (hlo : -1 ≤ lo) :
    ∀ (E : List (Ent σ S)),
      (∀ e ∈ E, ∃ r, f e.st = .ok r ∧ Moved o R e.v lo e.st r) →
      ∃ r, conAll f (E.map (·.st)) = .ok r ∧
        ((r.1 = true ∧ ∃ E', r.2 = E'.map (·.st) ∧ E'.map (·.v) = E.map (·.v) ∧
            (∀ e ∈ E', 0 ≤ e.pos ∧ R e.st e.v e.pos false ∧ NextAfter e.v lo e.pos) ∧ cLeft o E' + E.length ≤ cLeft o E) ∨
         (r.1 = false ∧ r.2.length = E.length ∧ ∃ e ∈ E, ∀ x, e.v.docs x = true → x ≤ lo)) := by
  intro E
  induction E with
  | nil => intro _; exact ⟨_, rfl, .inl ⟨rfl, [], rfl, rfl, by simp, by simp⟩⟩
  | cons e E ih =>
    intro h
    obtain ⟨r, r1, r2⟩ := h e (by simp)
    obtain ⟨q, q1, q2⟩ := ih (fun e' he' => h e' (by simp [he']))
    simp only [List.map_cons]
    unfold conAll
    rw [r1, Res.ok_bind]
    rcases r2 with ⟨e1, d, e2, e3, e4⟩ | ⟨e1, e2⟩
    · rw [if_pos e1, q1, Res.ok_bind]
      have hd := e2.2.1
      refine ⟨_, rfl, ?_⟩
      rcases q2 with ⟨a1, E', a2, a3, a4, a5⟩ | ⟨a1, a2, w, hw, a3⟩
      · refine .inl ⟨a1, ⟨r.2, e.v, d⟩ :: E', by simp [a2], by simp [a3], ?_, ?_⟩
        · intro w hw
          rcases List.mem_cons.mp hw with rfl | h1
          · exact ⟨show 0 ≤ d by omega, e3, e2⟩
          · exact a4 w h1
        · simp only [cLeft, List.map_cons, List.sum_cons, List.length_cons] at *; omega
      · exact .inr ⟨a1, by simp [a2], w, by simp [hw], a3⟩
    · rw [if_neg (by simp [e1])]
      exact ⟨_, rfl, .inr ⟨rfl, by simp, e, by simp, e2⟩⟩

/-- How a conjunction view relates to its sub-views; `skip_to` is not promised. -/
structure IsCon (A : Arith S) (us : List (View S)) (v : View S) : Prop where
  docs : ∀ d, v.docs d = true ↔ InAll us d
  sc : ∀ d, v.docs d = true → v.sc d = total A (us.map (fun u => u.sc d))
  cnt : ∀ d, v.docs d = true → v.cnt d = us.length
  subskips : ∀ u ∈ us, u.skips = true
  noskip : v.skips = false
  nonempty : us ≠ []
  nonneg : ∀ u ∈ us, ∀ x, u.docs x = true → 0 ≤ x

def conR (A : Arith S) (R : σ → View S → Int → Bool → Prop) (c : Con σ) (v : View S) (lo : Int) (b : Bool) : Prop :=
  ∃ (us : List (View S)) (E : List (Ent σ S)), IsCon A us v ∧ c.subs = E.map (·.st) ∧ E.map (·.v) = us ∧ (∀ e ∈ E, R e.st e.v lo b) ∧ c.more = true ∧
    c.lastScored ≤ lo ∧ (0 ≤ lo → b = false → c.lastScored < lo) ∧ c.firstIdx < E.length ∧
    ((c.firstTime = true ∧ lo = -1) ∨ (c.firstTime = false ∧ 0 ≤ lo ∧ c.doc = lo))

theorem IsCon.next {A : Arith S} {us v lo d} (h : IsCon (S := S) A us v) (h1 : InAll us d) (h2 : lo < d)
    (h3 : ∀ x, InAll us x → lo < x → d ≤ x) : NextAfter v lo d :=
  ⟨(h.docs d).mpr h1, h2, fun x hx hl => h3 x ((h.docs x).mp hx) hl⟩

/-- `csc_do_next` when the scorer is already exhausted. -/
theorem conDoNext_false {o : Ops σ S} (c : Con σ) (hm : c.more = false) (hk : c.firstIdx < c.subs.length) :
    ∃ c', conDoNext o c = .ok (false, c') := by
  unfold conDoNext conLoop
  have h2 : (c.firstIdx + c.subs.length - 1) % c.subs.length < c.subs.length := Nat.mod_lt _ (by omega)
  rw [List.getElem?_eq_getElem hk, List.getElem?_eq_getElem h2]
  simp only [hm]
  rw [if_neg (by simp)]
  exact ⟨_, by simp [hm]; rfl⟩

/-- From found entries back to the relation. -/
theorem conFound_R {A : Arith S} {o : Ops σ S} {R} {us v lo} (hv : IsCon A us v) {c c' : Con σ} {bound} (hlo : -1 ≤ lo)
    (hft : c.firstTime = false) (hls : c.lastScored ≤ lo)
    (h : ConFound R us lo c c' o bound) :
    c'.more = true ∧ ∃ d, NextAfter v lo d ∧ conR A R c' v d false ∧ (conOps A o).left c' ≤ bound := by
  obtain ⟨a1, d, E', a2, a3, a4, a5, a6, a7, a8, a9, a10, a11, a12⟩ := h
  refine ⟨a1, d, hv.next a2 a3 a4, ⟨us, E', hv, a5, a6, fun e he => (a7 e he).1, a1, by omega, fun _ _ => by omega, a9, .inr ⟨by rw [a10, hft], by omega, a8⟩⟩, ?_⟩
  simp only [conOps, a5, cLeft_map]; exact a12

/-- Sorting then searching, from freshly moved entries. -/
theorem conSort_doNext {A : Arith S} {o : Ops σ S} {R} (g : Good P o R) {us v lo} (hv : IsCon A us v) (hlo : -1 ≤ lo) (c : Con σ) (E : List (Ent σ S))
    (hsub : c.subs = E.map (·.st)) (hE : E ≠ []) (hinv : ConInv R us lo E) (hpos : ∀ e ∈ E, lo < e.pos) (hm : c.more = true)
    (hk : c.firstIdx < E.length) (hft : c.firstTime = false) (hls : c.lastScored ≤ lo) :
    ∃ c1, conSortScorers o c = .ok c1 ∧ c1.firstTime = false ∧ c1.lastScored = c.lastScored ∧ c1.firstIdx < c1.subs.length ∧
      ((c1.more = true ∧ ∃ r, conDoNext o c1 = .ok r ∧
        ((r.1 = true ∧ ∃ d, NextAfter v lo d ∧ conR A R r.2 v d false ∧ (conOps A o).left r.2 ≤ cLeft o E) ∨
         (r.1 = false ∧ ∀ x, v.docs x = true → x ≤ lo))) ∨
       (c1.more = false ∧ ∀ x, v.docs x = true → x ≤ lo)) := by
  obtain ⟨e, es, rfl⟩ : ∃ e es, E = e :: es := by
    cases E with
    | nil => exact absurd rfl hE
    | cons a l => exact ⟨a, l, rfl⟩
  unfold conSortScorers
  rw [hsub]
  simp only [List.map_cons]
  obtain ⟨r, r1, r2⟩ := conSort_spec g us hv.subskips lo es [] e (by simpa using hinv) (by simp)
  simp only [List.map_nil] at r1
  rw [r1, Res.ok_bind]
  rcases r2 with ⟨a1, E', a2, a3, a4, a5, a6, a7⟩ | ⟨a1, a2, a3⟩
  · rw [if_pos a1]
    have hE' : 0 < E'.length := by rw [a5]; simp
    refine ⟨_, rfl, hft, rfl, by simp only [a2, List.length_map]; exact hE', .inl ⟨hm, ?_⟩⟩
    have hrot : rotL 0 E' = E' := by simp [rotL]
    obtain ⟨c', w1, w2⟩ := conLoop_spec g us hv.subskips lo ((r.2.map o.left).sum + 2) { c with subs := r.2, firstIdx := 0 } E'
      (by rw [a2, cLeft_map]; exact Nat.le_refl _) hm a2 hE' a3 (by simp only [hrot]; exact a4) (by
        intro z hz
        simp only [hrot] at hz
        exact a7 z (List.mem_of_getLast? hz) (by simpa using hpos))
    unfold conDoNext
    simp only []
    rw [w1, Res.ok_bind]
    refine ⟨_, rfl, ?_⟩
    rcases w2 with h | ⟨h1, h2⟩
    · obtain ⟨b1, d, b2, b3, b4⟩ := conFound_R hv hlo hft hls h
      refine .inl ⟨b1, d, b2, b3, ?_⟩
      simp only [List.nil_append] at a6; exact Nat.le_trans b4 a6
    · exact .inr ⟨h1, fun x hx => h2 x ((hv.docs x).mp hx)⟩
  · rw [if_neg (by simp [a1])]
    refine ⟨_, rfl, hft, rfl, ?_, .inr ⟨rfl, fun x hx => a3 x ((hv.docs x).mp hx)⟩⟩
    simp only [a2]
    simpa using hk

theorem conInv_moved {R : σ → View S → Int → Bool → Prop} {us lo} {E E' : List (Ent σ S)} (hv : E.map (·.v) = us) (hv' : E'.map (·.v) = E.map (·.v))
    (h : ∀ e ∈ E', 0 ≤ e.pos ∧ R e.st e.v e.pos false ∧ NextAfter e.v lo e.pos) : ConInv R us lo E' := by
  refine ⟨by rw [hv', hv], fun e he => ⟨(h e he).1, false, (h e he).2.1, fun _ => rfl⟩, fun x hx hl e he => ?_⟩
  exact (h e he).2.2.2.2 x (hx e.v (by rw [← hv, ← hv']; exact List.mem_map_of_mem he)) hl

theorem good_con {A : Arith S} (hA : P → Lawful A) {o : Ops σ S} {R} (g : Good P o R) : Good P (conOps A o) (conR A R) where
  lo := by
    rintro c v lo b ⟨us, E, hv, hsub, hvs, hR, hm, hls, hls2, hk, hst⟩
    obtain ⟨e, he⟩ : ∃ e, e ∈ E := ⟨E[c.firstIdx], List.getElem_mem _⟩
    refine ⟨(g.lo (hR e he)).1, fun h0 => (hv.docs lo).mpr fun u hu => ?_⟩
    rw [← hvs] at hu
    obtain ⟨w, hw, rfl⟩ := List.mem_map.mp hu
    exact (g.lo (hR w hw)).2 h0
  nonneg := by
    rintro c v lo b x ⟨us, E, hv, _⟩ hx
    have h1 := (hv.docs x).mp hx
    cases hus : us with
    | nil => exact absurd hus hv.nonempty
    | cons u l => exact hv.nonneg u (by simp [hus]) x (h1 u (by simp [hus]))
  next := by
    rintro c v lo b ⟨us, E, hv, hsub, hvs, hR, hm, hls, hls2, hk, hst⟩
    have hEne : E ≠ [] := by intro h; subst h; simp at hk
    have hleft : (conOps A o).left c = cLeft o E := by simp only [conOps, hsub, cLeft_map]; rfl
    show ∃ r, conNext o c = .ok r ∧ _
    unfold conNext
    rcases hst with ⟨hft, hlo⟩ | ⟨hft, h0, hdoc⟩
    · subst hlo
      rw [if_pos hft]
      unfold conInit
      rw [if_pos (by rw [hsub]; simpa using List.length_pos_iff.mpr hEne)]
      obtain ⟨r, r1, r2⟩ := conAll_spec (o := o) (R := R) o.next (-1) (Int.le_refl _) E (fun e he => g.next (hR e he))
      rw [hsub, r1, Res.ok_bind]
      rcases r2 with ⟨a1, E', a2, a3, a4, a5⟩ | ⟨a1, a2, w, hw, a3⟩
      · rw [if_pos a1]
        have hE'len : E'.length = E.length := by
          have := congrArg List.length a3; simpa using this
        have hinv := conInv_moved hvs a3 a4
        obtain ⟨c1, s1, s2, s3, s4, s5⟩ := conSort_doNext g hv (Int.le_refl _) { c with subs := r.2, more := true, firstTime := false } E' a2
          (by intro h; rw [h] at hE'len; exact hEne (List.length_eq_zero_iff.mp (by simpa using hE'len.symm)))
          hinv (fun e he => by have := (a4 e he).1; omega) rfl (by simp only []; omega) rfl hls
        -- `csc_init` clears first_time after sorting; sorting does not read it
        have hcomm : conSortScorers o { c with subs := r.2, more := true } = .ok { c1 with firstTime := c.firstTime } := by
          unfold conSortScorers at s1 ⊢
          simp only [] at s1 ⊢
          cases hr2 : r.2 with
          | nil => rw [hr2] at s1; simp at s1
          | cons z zs =>
            rw [hr2] at s1
            simp only [] at s1 ⊢
            obtain ⟨k, k1, k2⟩ := Res.bind_eq_ok.mp s1
            rw [k1, Res.ok_bind]
            split at k2
            · rename_i hk1; rw [if_pos hk1]; cases k2; rfl
            · rename_i hk1; rw [if_neg hk1]; cases k2; rfl
        rw [hcomm, Res.ok_bind, Res.ok_bind]
        have hc1 : ({ c1 with firstTime := c.firstTime } : Con σ) = { c1 with firstTime := c.firstTime } := rfl
        have hback : ({ { c1 with firstTime := c.firstTime } with firstTime := false } : Con σ) = c1 := by
          cases c1; simp only at s2; subst s2; rfl
        simp only [hback]
        have hElen : 0 < E.length := by omega
        rcases s5 with ⟨_, r', b1, b2⟩ | ⟨b1, b2⟩
        · refine ⟨r', b1, ?_⟩
          rcases b2 with ⟨d1, d, d2, d3, d4⟩ | ⟨d1, d2⟩
          · exact .inl ⟨d1, d, d2, d3, by rw [hleft]; omega⟩
          · exact .inr ⟨d1, d2⟩
        · obtain ⟨c', w1⟩ := conDoNext_false (o := o) c1 b1 s4
          exact ⟨_, w1, .inr ⟨rfl, b2⟩⟩
      · rw [if_neg (by simp [a1]), Res.ok_bind]
        obtain ⟨c', w1⟩ := conDoNext_false (o := o) { c with subs := r.2, more := false, firstTime := false } rfl (by simp only [a2]; exact hk)
        refine ⟨_, w1, .inr ⟨rfl, fun x hx => a3 x ?_⟩⟩
        exact (hv.docs x).mp hx w.v (by rw [← hvs]; exact List.mem_map_of_mem hw)
    · rw [if_neg (by simp [hft]), if_pos hm]
      simp only []
      have hlen : c.subs.length = E.length := by rw [hsub]; simp
      rw [hlen]
      obtain ⟨z, hz⟩ : ∃ z, (rotL c.firstIdx E).getLast? = some z := by
        have hne : rotL c.firstIdx E ≠ [] := by
          intro h
          have h2 := rotL_head hk
          rw [h, List.getElem?_eq_getElem hk] at h2; cases h2
        exact ⟨_, List.getLast?_eq_some_getLast hne⟩
      have hEz : E[(c.firstIdx + E.length - 1) % E.length]? = some z := by rw [rotL_prev hk, hz]
      have hzm : z ∈ E := List.mem_of_getElem? hEz
      rw [show c.subs[(c.firstIdx + E.length - 1) % E.length]? = some z.st by rw [hsub, List.getElem?_map, hEz]; rfl]
      simp only []
      obtain ⟨r, r1, r2⟩ := g.next (hR z hzm)
      rw [r1, Res.ok_bind]
      -- the entries, all standing on `lo`
      let F : List (Ent σ S) := E.map (fun e => ⟨e.st, e.v, lo⟩)
      have hFz : F[(c.firstIdx + E.length - 1) % E.length]? = some ⟨z.st, z.v, lo⟩ := by
        simp only [F, List.getElem?_map, hEz]; rfl
      have hFlen : F.length = E.length := by simp [F]
      have hFst : F.map (·.st) = E.map (·.st) := by simp [F, Function.comp_def]
      have hFv : F.map (·.v) = us := by rw [← hvs]; simp [F, Function.comp_def]
      have hFleft : cLeft o F = cLeft o E := by simp [cLeft, F, Function.comp_def]
      have hFinv : ConInv R us lo F := by
        refine ⟨hFv, fun e he => ?_, fun x hx hl e he => ?_⟩
        · obtain ⟨w, hw, rfl⟩ := List.mem_map.mp he
          exact ⟨h0, b, hR w hw, fun h => by simp only [] at h; omega⟩
        · obtain ⟨w, hw, rfl⟩ := List.mem_map.mp he
          show lo ≤ x; omega
      rcases r2 with ⟨e1, d, e2, e3, e4⟩ | ⟨e1, e2⟩
      · have hd := e2.2.1
        let z' : Ent σ S := ⟨r.2, z.v, d⟩
        have hinv' := hFinv.set (e' := z') hFz rfl (show 0 ≤ d by omega) e3
          (fun x hx hl => e2.2.2 x (hx z.v (by rw [← hvs]; exact List.mem_map_of_mem hzm)) hl)
        have hl := cLeft_set (o := o) (e' := z') hFz
        have hzl : o.left z'.st = o.left r.2 := rfl
        simp only [] at hl
        have hkF : c.firstIdx < F.length := by omega
        have hrot := rotL_set_prev hkF z'
        rw [hFlen] at hrot
        have hset : c.subs.set ((c.firstIdx + E.length - 1) % E.length) r.2 = (F.set ((c.firstIdx + E.length - 1) % E.length) z').map (·.st) := by
          rw [List.map_set, hFst, hsub]
        have hFall : ∀ e ∈ rotL c.firstIdx F, e.pos = lo := by
          intro e he
          obtain ⟨w, hw, rfl⟩ := List.mem_map.mp (rotL_mem.mp he)
          rfl
        have hsort : (rotL c.firstIdx (F.set ((c.firstIdx + E.length - 1) % E.length) z')).Pairwise (fun a b => a.pos ≤ b.pos) := by
          rw [hrot, List.pairwise_append]
          refine ⟨?_, by simp, ?_⟩
          · rw [List.pairwise_iff_forall_sublist]
            intro a b' hab
            have ha := hFall a (List.dropLast_subset _ (hab.subset (by simp)))
            have hb := hFall b' (List.dropLast_subset _ (hab.subset (by simp)))
            omega
          · intro a ha w hw
            simp only [List.mem_singleton] at hw; subst hw
            have := hFall a (List.dropLast_subset _ ha)
            show a.pos ≤ d; omega
        unfold conDoNext
        obtain ⟨c', w1, w2⟩ := conLoop_spec g us hv.subskips lo (((c.subs.set ((c.firstIdx + E.length - 1) % E.length) r.2).map o.left).sum + 2)
          { c with subs := c.subs.set ((c.firstIdx + E.length - 1) % E.length) r.2, more := r.1 } (F.set ((c.firstIdx + E.length - 1) % E.length) z')
          (by rw [hset, cLeft_map]; exact Nat.le_refl _) e1 hset (by simp only [List.length_set]; omega) hinv' hsort (by
            intro y hy
            simp only [] at hy
            rw [hrot, List.getLast?_append] at hy
            simp only [List.getLast?_singleton, Option.some_or, Option.some.injEq] at hy
            rw [← hy]; show lo < d; omega)
        simp only []
        rw [w1, Res.ok_bind]
        refine ⟨_, rfl, ?_⟩
        rcases w2 with h | ⟨h1, h2⟩
        · obtain ⟨b1, d', b2, b3, b4⟩ := conFound_R hv (by omega) hft hls h
          refine .inl ⟨b1, d', b2, b3, ?_⟩
          simp only [] at b4 ⊢
          rw [hleft]; omega
        · exact .inr ⟨h1, fun x hx => h2 x ((hv.docs x).mp hx)⟩
      · obtain ⟨c', w1⟩ := conDoNext_false (o := o) { c with subs := c.subs.set ((c.firstIdx + E.length - 1) % E.length) r.2, more := r.1 } e1
          (by simp only [List.length_set, hlen]; exact hk)
        refine ⟨_, w1, .inr ⟨rfl, fun x hx => e2 x ?_⟩⟩
        exact (hv.docs x).mp hx z.v (by rw [← hvs]; exact List.mem_map_of_mem hzm)
  skip := by
    rintro c v lo b n ⟨us, E, hv, _⟩ hs
    rw [hv.noskip] at hs; cases hs
  doc := by
    rintro c v lo b ⟨us, E, hv, hsub, hvs, hR, hm, hls, hls2, hk, hst⟩ h0
    rcases hst with ⟨_, h1⟩ | ⟨_, _, h1⟩
    · omega
    · exact h1
  score := by
    rintro c v lo ⟨us, E, hv, hsub, hvs, hR, hm, hls, hls2, hk, hst⟩ h0
    have hls' := hls2 h0 rfl
    have hdoc : c.doc = lo := by
      rcases hst with ⟨_, h1⟩ | ⟨_, _, h1⟩
      · omega
      · exact h1
    have hsum : ∀ (E : List (Ent σ S)) (acc : S), (∀ e ∈ E, R e.st e.v lo false) →
        ∃ y E', conSum A o (E.map (·.st)) acc = .ok (y, E'.map (·.st)) ∧
          (P → y = A.add acc (total A ((E.map (·.v)).map (fun u => u.sc lo)))) ∧
          E'.map (·.v) = E.map (·.v) ∧ (∀ e ∈ E', R e.st e.v lo true) ∧ cLeft o E' ≤ cLeft o E := by
      intro E
      induction E with
      | nil => intro acc _; exact ⟨acc, [], by simp [conSum], fun hp => by simp [total]; rw [(hA hp).comm, (hA hp).zero], rfl, by simp, Nat.le_refl _⟩
      | cons e E ih =>
        intro acc hE
        obtain ⟨x, s', k1, kx, k2, k3⟩ := g.score (hE e (by simp)) h0
        obtain ⟨y, E', i1, iy, i2, i3, i4⟩ := ih (A.add acc x) (fun w hw => hE w (by simp [hw]))
        refine ⟨y, ⟨s', e.v, lo⟩ :: E', ?_, ?_, by simp [i2], ?_, ?_⟩
        · simp only [List.map_cons, conSum, k1, Res.ok_bind, i1]
        · intro hp
          rw [iy hp, kx hp, (hA hp).assoc]; rfl
        · intro w hw
          rcases List.mem_cons.mp hw with rfl | h1
          · exact k2
          · exact i3 w h1
        · simp only [cLeft, List.map_cons, List.sum_cons] at *; omega
    obtain ⟨y, E', i1, iy, i2, i3, i4⟩ := hsum E A.zero hR
    have hvd : v.docs lo = true := (hv.docs lo).mpr fun u hu => by
      rw [← hvs] at hu
      obtain ⟨w, hw, rfl⟩ := List.mem_map.mp hu
      exact (g.lo (hR w hw)).2 h0
    have hElen : 1 ≤ c.subs.length := by rw [hsub]; simp; omega
    have hE'len : E'.length = E.length := by have := congrArg List.length i2; simpa using this
    show ∃ x s', conScore A o c = .ok (x, v.cnt lo, s') ∧ _
    unfold conScore
    simp only []
    rw [if_pos (by omega), if_pos (by omega)]
    rw [hsub] at hElen ⊢
    rw [i1, Res.ok_bind]
    refine ⟨A.mul y (A.dcoord (E.map (·.st)).length (E.map (·.st)).length), { c with subs := E'.map (·.st), lastScored := c.doc }, ?_, ?_, ⟨us, E', hv, rfl, by rw [i2, hvs], i3, hm, ?_, by simp, by simp only []; omega, ?_⟩, ?_⟩
    · rw [hv.cnt lo hvd, ← hvs]; simp only [List.length_map]
    · intro hp
      have hA := hA hp
      rw [hA.one _ _ hElen, iy hp, hA.zero, hvs, hv.sc lo hvd]
    · show c.doc ≤ lo
      omega
    · rcases hst with ⟨_, h1⟩ | h
      · omega
      · exact .inr h
    · simp only [conOps, hsub, cLeft_map]; exact i4

/-- A fresh conjunction scorer over fresh sub-scorers. -/
theorem conR_new {A : Arith S} {R : σ → View S → Int → Bool → Prop} {subs : List σ} {us : List (View S)} {v : View S}
    (hv : IsCon A us v) (h : All2 (fun s u => R s u (-1) false) subs us) : conR A R (Con.new subs) v (-1) false := by
  have : ∃ E : List (Ent σ S), subs = E.map (·.st) ∧ E.map (·.v) = us ∧ ∀ e ∈ E, R e.st e.v (-1) false := by
    have hne := hv.nonempty
    clear hv hne
    induction h with
    | nil => exact ⟨[], rfl, rfl, by simp⟩
    | @cons a b _ _ h1 _ ih =>
      obtain ⟨E, e1, e2, e3⟩ := ih
      refine ⟨⟨a, b, -1⟩ :: E, by simp [e1], by simp [e2], fun e he => ?_⟩
      rcases List.mem_cons.mp he with rfl | h2
      · exact h1
      · exact e3 e h2
  obtain ⟨E, e1, e2, e3⟩ := this
  have hE : 0 < E.length := by
    have h1 := hv.nonempty
    rw [← e2] at h1
    exact List.length_pos_iff.mpr (fun h => h1 (by rw [h]; rfl))
  exact ⟨us, E, hv, e1, e2, e3, rfl, Int.le_refl _, by omega, hE, .inl ⟨rfl, rfl⟩⟩

/-- `csc_skip_to` is right when there is a common document at or after the target. -/
theorem con_skip_found {A : Arith S} {o : Ops σ S} {R} (g : Good P o R) {c : Con σ} {v lo b n} (h : conR A R c v lo b) (hn : lo < n)
    (hx : ∃ x, v.docs x = true ∧ n ≤ x) :
    ∃ c', conSkipTo o c n = .ok (true, c') ∧ ∃ d, NextAfter v (n - 1) d ∧ conR A R c' v d false := by
  obtain ⟨us, E, hv, hsub, hvs, hR, hm, hls, hls2, hk, hst⟩ := h
  have hEne : E ≠ [] := by intro h; subst h; simp at hk
  have hlo : -1 ≤ lo := by
    obtain ⟨e, he⟩ : ∃ e, e ∈ E := ⟨E[c.firstIdx], List.getElem_mem _⟩
    exact (g.lo (hR e he)).1
  obtain ⟨x, hx1, hx2⟩ := hx
  have hxall := (hv.docs x).mp hx1
  unfold conSkipTo
  simp only [hm, if_true]
  generalize hcg : (if c.firstTime = true then ({ c with more := decide (c.subs.length > 0), firstTime := false } : Con σ) else c) = c0
  have hc0 : c0.subs = c.subs ∧ c0.firstIdx = c.firstIdx ∧ c0.firstTime = false ∧ c0.lastScored = c.lastScored ∧ c0.more = true := by
    rw [← hcg]
    split
    · refine ⟨rfl, rfl, rfl, rfl, ?_⟩
      simp only [decide_eq_true_eq, hsub, List.length_map]; omega
    · rename_i h; exact ⟨rfl, rfl, by simpa using h, rfl, hm⟩
  obtain ⟨c1, c2, c3, c4, c5⟩ := hc0
  obtain ⟨r, r1, r2⟩ := conAll_spec (o := o) (R := R) (fun s => o.skipTo s n) (n - 1) (by omega) E
    (fun e he => g.skip (hR e he) (hv.subskips e.v (by rw [← hvs]; exact List.mem_map_of_mem he)) hn)
  rw [c1, hsub, r1, Res.ok_bind]
  rcases r2 with ⟨a1, E', a2, a3, a4, a5⟩ | ⟨a1, a2, w, hw, a3⟩
  · rw [if_pos a1]
    have hE'len : E'.length = E.length := by
      have := congrArg List.length a3; simpa using this
    have hinv := conInv_moved hvs a3 a4
    obtain ⟨cs, s1, s2, s3, s4, s5⟩ := conSort_doNext g hv (show -1 ≤ n - 1 by omega) { c0 with subs := r.2 } E' a2
      (by intro h; rw [h] at hE'len; exact hEne (List.length_eq_zero_iff.mp (by simpa using hE'len.symm)))
      hinv (fun e he => (a4 e he).2.2.2.1) c5 (by simp only []; omega) c3 (by simp only []; omega)
    rw [s1, Res.ok_bind]
    rcases s5 with ⟨hmore, r', b1, b2⟩ | ⟨_, b2⟩
    · have heq : ({ cs with more := true } : Con σ) = cs := by cases cs; simp only at hmore; subst hmore; rfl
      rw [heq, b1]
      rcases b2 with ⟨d1, d, d2, d3, _⟩ | ⟨_, d2⟩
      · obtain ⟨rb, rc⟩ := r'
        simp only at d1; subst d1
        exact ⟨rc, rfl, d, d2, d3⟩
      · have := d2 x hx1; omega
    · have := b2 x hx1; omega
  · have := a3 x (hxall w.v (by rw [← hvs]; exact List.mem_map_of_mem hw)); omega

end Ferret.Scorer
