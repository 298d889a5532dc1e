import Verif.Model.TokenStreams

/-! Counting references of token streams and analyzers (C96). -/

namespace Ferret.TS
open Ferret Ferret.Spec Ferret.Ana

local notation "Ref" => Nat

def cntOf (h : Heap) (r : Ref) : Nat := match h[r]? with | some o => o.cnt | none => 0

def allRefs (h : Heap) : List Ref := h.flatMap Obj.refs

theorem cntOf_some {h : Heap} {r : Ref} {o : Obj} (e : h[r]? = some o) : cntOf h r = o.cnt := by unfold cntOf; rw [e]

theorem lt_of_some {h : Heap} {r : Ref} {o : Obj} (e : h[r]? = some o) : r < h.length := (List.getElem?_eq_some_iff.1 e).1

theorem set_get (h : Heap) {x : Ref} {o : Obj} (e : h[x]? = some o) (o' : Obj) (y : Ref) : (h.set x o')[y]? = if y = x then some o' else h[y]? := by
  by_cases hy : y = x
  · subst hy
    rw [if_pos rfl, List.getElem?_set_self (lt_of_some e)]
  · rw [if_neg hy, List.getElem?_set_ne (fun h => hy h.symm)]

theorem append_get (h : Heap) (o : Obj) (y : Ref) : (h ++ [o])[y]? = if y = h.length then some o else h[y]? := by
  by_cases hy : y = h.length
  · subst hy; rw [if_pos rfl, List.getElem?_concat_length]
  · rw [if_neg hy]
    by_cases hl : y < h.length
    · rw [List.getElem?_append_left hl]
    · have h1 : (h ++ [o]).length ≤ y := by simp; omega
      have h2 : h.length ≤ y := by omega
      rw [List.getElem?_eq_none h1, List.getElem?_eq_none h2]

theorem append_old {h : Heap} {y : Ref} {o o' : Obj} (e : h[y]? = some o) : (h ++ [o'])[y]? = some o := by
  rw [append_get, if_neg (by have := lt_of_some e; omega)]; exact e

theorem allRefs_set : ∀ (h : Heap) (x : Nat) (o o' : Obj) (r : Ref), h[x]? = some o →
    (allRefs (h.set x o')).count r + o.refs.count r = (allRefs h).count r + o'.refs.count r := by
  intro h
  induction h with
  | nil => intro x o o' r e; simp at e
  | cons a h ih =>
    intro x o o' r e
    cases x with
    | zero =>
      rw [List.getElem?_cons_zero] at e
      cases e
      simp only [allRefs, List.set_cons_zero, List.flatMap_cons, List.count_append]
      omega
    | succ x =>
      rw [List.getElem?_cons_succ] at e
      have := ih x o o' r e
      simp only [allRefs, List.set_cons_succ, List.flatMap_cons, List.count_append] at this ⊢
      omega

theorem allRefs_append (h : Heap) (o : Obj) (r : Ref) : (allRefs (h ++ [o])).count r = (allRefs h).count r + o.refs.count r := by
  simp [allRefs, List.flatMap_append, List.count_append]

theorem sum_set : ∀ (h : Heap) (x : Nat) (o o' : Obj), h[x]? = some o → ((h.set x o').map Obj.cnt).sum + o.cnt = (h.map Obj.cnt).sum + o'.cnt := by
  intro h
  induction h with
  | nil => intro x o o' e; simp at e
  | cons a h ih =>
    intro x o o' e
    cases x with
    | zero =>
      rw [List.getElem?_cons_zero] at e
      cases e
      simp only [List.set_cons_zero, List.map_cons, List.sum_cons]
      omega
    | succ x =>
      rw [List.getElem?_cons_succ] at e
      have := ih x o o' e
      simp only [List.set_cons_succ, List.map_cons, List.sum_cons]
      omega

theorem mem_allRefs {h : Heap} {x : Ref} {o : Obj} {k : Ref} (e : h[x]? = some o) (hk : k ∈ o.refs) : k ∈ allRefs h :=
  List.mem_flatMap.2 ⟨o, List.mem_of_getElem? e, hk⟩

def Obj.isPfa (o : Obj) : Bool := match o.node with | .pfa _ _ => true | _ => false

def Obj.chain (o : Obj) : Option Ref := match o.node with
  | .tz _ _ _ _ c => some c
  | .filt _ _ c => some c
  | _ => none

/-- `R` are the references from outside. -/
structure Good (h : Heap) (R : List Ref) : Prop where
  count : ∀ r, cntOf h r = (allRefs h).count r + R.count r
  ord : ∀ (x : Ref) (o : Obj), h[x]? = some o → ∀ k ∈ o.refs, (∀ ok, h[k]? = some ok → ok.isPfa = false) ∧ (k < x ∨ o.isPfa = true)
  chain : ∀ (x : Ref) (o : Obj), h[x]? = some o → ∀ c, o.chain = some c → c ≤ x
  dead : ∀ (x : Ref) (o : Obj), h[x]? = some o → o.cnt = 0 → o.refs = []

theorem Good.live {h : Heap} {R : List Ref} (hs : Good h R) {r : Ref} (hr : r ∈ R ∨ r ∈ allRefs h) : ∃ o, h[r]? = some o ∧ 0 < o.cnt := by
  have hc := hs.count r
  have : 0 < cntOf h r := by
    rcases hr with hr | hr
    · have := List.count_pos_iff.2 hr; omega
    · have := List.count_pos_iff.2 hr; omega
  unfold cntOf at this
  cases e : h[r]? with
  | none => rw [e] at this; simp at this
  | some o => rw [e] at this; exact ⟨o, rfl, this⟩

theorem Good.congr {h : Heap} {R R' : List Ref} (hs : Good h R) (e : ∀ r, R.count r = R'.count r) : Good h R' :=
  ⟨fun r => by rw [hs.count r, e r], hs.ord, hs.chain, hs.dead⟩

theorem Good.set {h : Heap} {R R' : List Ref} {x : Ref} {o : Obj} (hs : Good h R) (e : h[x]? = some o) (o' : Obj)
    (hc : ∀ r, R'.count r + o'.refs.count r + (if r = x then o.cnt else 0) = R.count r + o.refs.count r + (if r = x then o'.cnt else 0))
    (hp : o.isPfa = false → o'.isPfa = false)
    (ho : ∀ k ∈ o'.refs, (∀ ok, (h.set x o')[k]? = some ok → ok.isPfa = false) ∧ (k < x ∨ o'.isPfa = true))
    (hch : ∀ c, o'.chain = some c → c ≤ x) (hd : o'.cnt = 0 → o'.refs = []) : Good (h.set x o') R' := by
  refine ⟨?_, ?_, ?_, ?_⟩
  · intro r
    have h1 := hs.count r
    have h2 := allRefs_set h x o o' r e
    have h3 := hc r
    unfold cntOf at h1 ⊢
    rw [set_get h e]
    by_cases hr : r = x
    · subst hr
      rw [if_pos rfl] at h3 ⊢
      rw [if_pos rfl] at h3
      rw [e] at h1
      simp only at h1 ⊢
      omega
    · rw [if_neg hr] at h3 ⊢
      rw [if_neg hr] at h3
      cases e2 : h[r]? with
      | none => rw [e2] at h1; simp only at h1 ⊢; omega
      | some o2 => rw [e2] at h1; simp only at h1 ⊢; omega
  · intro y oy ey k hk
    rw [set_get h e] at ey
    by_cases hy : y = x
    · rw [if_pos hy] at ey
      cases ey
      subst hy
      exact ho k hk
    · rw [if_neg hy] at ey
      obtain ⟨a, b⟩ := hs.ord y oy ey k hk
      refine ⟨?_, b⟩
      intro ok ek
      rw [set_get h e] at ek
      by_cases hkx : k = x
      · rw [if_pos hkx] at ek
        cases ek
        exact hp (a o (by rw [hkx]; exact e))
      · rw [if_neg hkx] at ek
        exact a ok ek
  · intro y oy ey c hcy
    rw [set_get h e] at ey
    by_cases hy : y = x
    · rw [if_pos hy] at ey
      cases ey
      subst hy
      exact hch c hcy
    · rw [if_neg hy] at ey
      exact hs.chain y oy ey c hcy
  · intro y oy ey hcy
    rw [set_get h e] at ey
    by_cases hy : y = x
    · rw [if_pos hy] at ey
      cases ey
      exact hd hcy
    · rw [if_neg hy] at ey
      exact hs.dead y oy ey hcy

/-- Nothing but the count. -/
theorem Good.setCnt {h : Heap} {R R' : List Ref} {x : Ref} {o : Obj} (hs : Good h R) (e : h[x]? = some o) (c : Nat) (hc0 : 0 < c)
    (hc : ∀ r, R'.count r + (if r = x then o.cnt else 0) = R.count r + (if r = x then c else 0)) : Good (h.set x { o with cnt := c }) R' := by
  refine hs.set e _ ?_ (fun h => h) ?_ (fun c hc => hs.chain x o e c hc) (fun h => by simp only at h; omega)
  · intro r
    have := hc r
    have hr : (({ o with cnt := c } : Obj)).refs = o.refs := rfl
    rw [hr]
    show _ = _ + (if r = x then c else 0)
    omega
  · intro k hk
    obtain ⟨a, b⟩ := hs.ord x o e k hk
    refine ⟨?_, b⟩
    intro ok ek
    rw [set_get h e] at ek
    by_cases hkx : k = x
    · rw [if_pos hkx] at ek
      cases ek
      exact a o (by rw [hkx]; exact e)
    · rw [if_neg hkx] at ek
      exact a ok ek

theorem Good.alloc {h : Heap} {R R' : List Ref} (hs : Good h R) (nd : Node) (hc : ∀ r, R.count r = R'.count r + (Obj.refs ⟨1, nd⟩).count r)
    (ho : ∀ k ∈ Obj.refs ⟨1, nd⟩, ∀ ok, h[k]? = some ok → ok.isPfa = false) (hch : ∀ c, Obj.chain ⟨1, nd⟩ = some c → c ≤ h.length) :
    Good (h ++ [⟨1, nd⟩]) (h.length :: R') := by
  have hin : ∀ k ∈ Obj.refs ⟨1, nd⟩, k < h.length := by
    intro k hk
    have : 0 < R.count k := by have := hc k; have := List.count_pos_iff.2 hk; omega
    obtain ⟨o, e, _⟩ := hs.live (.inl (List.count_pos_iff.1 this))
    exact lt_of_some e
  refine ⟨?_, ?_, ?_, ?_⟩
  · intro r
    have h1 := hs.count r
    rw [allRefs_append, List.count_cons]
    have h2 := hc r
    unfold cntOf at h1 ⊢
    rw [append_get]
    by_cases hr : r = h.length
    · rw [if_pos hr]
      subst hr
      have hn : h[h.length]? = none := List.getElem?_eq_none (Nat.le_refl _)
      rw [hn] at h1
      simp only at h1 ⊢
      simp only [beq_self_eq_true, if_true]
      omega
    · rw [if_neg hr]
      have : (h.length == r) = false := by simp; omega
      simp only [this, Bool.false_eq_true, if_false]
      cases e2 : h[r]? with
      | none => rw [e2] at h1; simp only at h1 ⊢; omega
      | some o2 => rw [e2] at h1; simp only at h1 ⊢; omega
  · intro y oy ey k hk
    rw [append_get] at ey
    by_cases hy : y = h.length
    · rw [if_pos hy] at ey
      cases ey
      refine ⟨?_, .inl (by rw [hy]; exact hin k hk)⟩
      intro ok ek
      rw [append_get, if_neg (by have := hin k hk; omega)] at ek
      exact ho k hk ok ek
    · rw [if_neg hy] at ey
      obtain ⟨a, b⟩ := hs.ord y oy ey k hk
      refine ⟨?_, b⟩
      obtain ⟨ok0, ek0, _⟩ := hs.live (.inr (mem_allRefs ey hk))
      intro ok ek
      rw [append_get, if_neg (by have := lt_of_some ek0; omega)] at ek
      exact a ok ek
  · intro y oy ey c hcy
    rw [append_get] at ey
    by_cases hy : y = h.length
    · rw [if_pos hy] at ey
      cases ey
      rw [hy]
      exact hch c hcy
    · rw [if_neg hy] at ey
      exact hs.chain y oy ey c hcy
  · intro y oy ey hcy
    rw [append_get] at ey
    by_cases hy : y = h.length
    · rw [if_pos hy] at ey
      cases ey
      simp at hcy
    · rw [if_neg hy] at ey
      exact hs.dead y oy ey hcy

theorem get_ok {h : Heap} {r : Ref} {o : Obj} (e : h[r]? = some o) (hl : 0 < o.cnt) : get h r = .ok o := by
  unfold get; rw [e]; exact if_neg (by omega)

/-- What is still there is as it was. -/
def Less (h h' : Heap) : Prop := h'.length = h.length ∧ ∀ (x : Ref) (o' : Obj), h'[x]? = some o' → 0 < o'.cnt → ∃ o, h[x]? = some o ∧ 0 < o.cnt ∧ o.node = o'.node

theorem Less.refl (h : Heap) : Less h h := ⟨rfl, fun _ o e l => ⟨o, e, l, rfl⟩⟩
theorem Less.trans {a b c : Heap} (h1 : Less a b) (h2 : Less b c) : Less a c := by
  refine ⟨h2.1.trans h1.1, ?_⟩
  intro x o e l
  obtain ⟨o1, e1, l1, n1⟩ := h2.2 x o e l
  obtain ⟨o2, e2, l2, n2⟩ := h1.2 x o1 e1 l1
  exact ⟨o2, e2, l2, n2.trans n1⟩

theorem drop_ok : ∀ (n : Nat) (work : List Ref) (h : Heap) (R : List Ref), Good h (work ++ R) → (h.map Obj.cnt).sum ≤ n →
    ∃ h', drop n work h = .ok h' ∧ Good h' R ∧ Less h h' := by
  intro n
  induction n with
  | zero =>
    intro work h R hs hn
    cases work with
    | nil => exact ⟨h, rfl, hs, Less.refl h⟩
    | cons r work =>
      exfalso
      obtain ⟨o, e, hl⟩ := hs.live (r := r) (.inl (by simp))
      have := sum_set h r o { o with cnt := 0 } e
      have h0 : (({ o with cnt := 0 } : Obj)).cnt = 0 := rfl
      omega
  | succ n ih =>
    intro work h R hs hn
    cases work with
    | nil => exact ⟨h, rfl, hs, Less.refl h⟩
    | cons r work =>
      obtain ⟨o, e, hl⟩ := hs.live (r := r) (.inl (by simp))
      have hd : drop (n + 1) (r :: work) h = (if o.cnt = 1 then drop n (o.refs ++ work) (h.set r ⟨0, .gone⟩) else drop n work (h.set r { o with cnt := o.cnt - 1 })) := by
        show (get h r >>= _) = _
        rw [get_ok e hl]
        rfl
      by_cases h1 : o.cnt = 1
      · rw [if_pos h1] at hd
        have hs' : Good (h.set r ⟨0, .gone⟩) ((o.refs ++ work) ++ R) := by
          refine hs.set e _ ?_ (fun _ => rfl) (by intro k hk; simp [Obj.refs] at hk) (by intro c hc; simp [Obj.chain] at hc) (fun _ => rfl)
          intro y
          simp only [List.cons_append, List.count_append, List.count_cons]
          by_cases hy : y = r
          · subst hy; simp [Obj.refs, h1]; omega
          · have : (r == y) = false := by simp; omega
            simp [hy, this, Obj.refs]; omega
        have hsum := sum_set h r o ⟨0, .gone⟩ e
        have h0 : ((⟨0, .gone⟩ : Obj)).cnt = 0 := rfl
        obtain ⟨h', e', hs'', hk⟩ := ih (o.refs ++ work) _ R hs' (by omega)
        refine ⟨h', by rw [hd]; exact e', hs'', Less.trans ⟨by simp, ?_⟩ hk⟩
        intro x o' ex lx
        rw [set_get h e] at ex
        by_cases hx : x = r
        · rw [if_pos hx] at ex; cases ex; simp at lx
        · rw [if_neg hx] at ex; exact ⟨o', ex, lx, rfl⟩
      · rw [if_neg h1] at hd
        have hs' : Good (h.set r { o with cnt := o.cnt - 1 }) (work ++ R) := by
          refine hs.setCnt e _ (by omega) ?_
          intro y
          simp only [List.cons_append, List.count_append, List.count_cons]
          by_cases hy : y = r
          · subst hy; simp; omega
          · have : (r == y) = false := by simp; omega
            simp [hy, this]
        have hsum := sum_set h r o { o with cnt := o.cnt - 1 } e
        have h0 : (({ o with cnt := o.cnt - 1 } : Obj)).cnt = o.cnt - 1 := rfl
        obtain ⟨h', e', hs'', hk⟩ := ih work _ R hs' (by omega)
        refine ⟨h', by rw [hd]; exact e', hs'', Less.trans ⟨by simp, ?_⟩ hk⟩
        intro x o' ex lx
        rw [set_get h e] at ex
        by_cases hx : x = r
        · rw [if_pos hx] at ex; cases ex; exact ⟨o, by rw [hx]; exact e, hl, rfl⟩
        · rw [if_neg hx] at ex; exact ⟨o', ex, lx, rfl⟩

theorem release_ok {h : Heap} {R work : List Ref} (hs : Good h (work ++ R)) : ∃ h', release work h = .ok h' ∧ Good h' R ∧ Less h h' :=
  drop_ok _ work h R hs (Nat.le_succ _)

/-- Without references nothing is left. -/
theorem no_leak {h : Heap} (hs : Good h []) : ∀ o ∈ h, o.cnt = 0 := by
  have pf : ∀ (x : Ref) (o : Obj), h[x]? = some o → o.isPfa = true → o.cnt = 0 := by
    intro x o e hp
    have hc := hs.count x
    rw [cntOf_some e, List.count_nil] at hc
    by_cases h0 : (allRefs h).count x = 0
    · omega
    · exfalso
      obtain ⟨po, hpo, hr⟩ := List.mem_flatMap.1 (List.count_pos_iff.1 (Nat.pos_of_ne_zero h0))
      obtain ⟨p, ep⟩ := List.mem_iff_getElem?.1 hpo
      have := (hs.ord p po ep x hr).1 o e
      rw [this] at hp; cases hp
  have key : ∀ (d : Nat) (x : Ref) (o : Obj), h[x]? = some o → h.length ≤ x + d → o.cnt = 0 := by
    intro d
    induction d with
    | zero => intro x o e hlt; have := lt_of_some e; omega
    | succ d ih =>
      intro x o e hlt
      have hc := hs.count x
      rw [cntOf_some e, List.count_nil] at hc
      by_cases h0 : (allRefs h).count x = 0
      · omega
      · exfalso
        obtain ⟨po, hpo, hr⟩ := List.mem_flatMap.1 (List.count_pos_iff.1 (Nat.pos_of_ne_zero h0))
        obtain ⟨p, ep⟩ := List.mem_iff_getElem?.1 hpo
        have hz : po.cnt = 0 := by
          rcases (hs.ord p po ep x hr).2 with hlt' | hp
          · exact ih p po ep (by omega)
          · exact pf p po ep hp
        rw [hs.dead p po ep hz] at hr
        cases hr
  intro o ho
  obtain ⟨x, e⟩ := List.mem_iff_getElem?.1 ho
  exact key h.length x o e (by omega)

end Ferret.TS
