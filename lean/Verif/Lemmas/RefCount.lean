import Verif.Model.RefCount

/-! Lemmas on reference counts. -/

namespace Ferret.Rc
open Ferret
open Ferret.Spec (Occur)

local notation "Ref" => Nat

/-! ### What holds after code -/

def Holds {α : Type} (x : M α) (h : Heap) (P : α → Heap → Prop) (E : Heap → Prop) : Prop :=
  match x h with
  | .ok a h => P a h
  | .raised h => E h
  | .ub => False
  | .long => True

theorem Holds.bind {α β : Type} {x : M α} {f : α → M β} {h : Heap} {P : α → Heap → Prop} {Q : β → Heap → Prop} {E : Heap → Prop}
    (hx : Holds x h P E) (hf : ∀ a h', P a h' → Holds (f a) h' Q E) : Holds (x >>= f) h Q E := by
  unfold Holds at hx
  show (match (M.bind x f) h with | .ok a h => Q a h | .raised h => E h | .ub => False | .long => True)
  unfold M.bind
  cases hxe : x h with
  | ok a h' => rw [hxe] at hx; exact hf a h' hx
  | raised h' => rw [hxe] at hx; exact hx
  | ub => rw [hxe] at hx; exact hx
  | long => trivial

theorem Holds.pure {α : Type} {a : α} {h : Heap} {P : α → Heap → Prop} {E : Heap → Prop} (hp : P a h) : Holds (pure a : M α) h P E := hp

theorem Holds.mono {α : Type} {x : M α} {h : Heap} {P Q : α → Heap → Prop} {E F : Heap → Prop} (hx : Holds x h P E) (hp : ∀ a h', P a h' → Q a h') (he : ∀ h', E h' → F h') :
    Holds x h Q F := by
  unfold Holds at hx ⊢
  cases hxe : x h with
  | ok a h' => rw [hxe] at hx; exact hp a h' hx
  | raised h' => rw [hxe] at hx; exact he h' hx
  | ub => rw [hxe] at hx; exact hx
  | long => trivial

theorem Holds.of_ok {α : Type} {x : M α} {h h' : Heap} {a : α} {P : α → Heap → Prop} {E : Heap → Prop} (hx : x h = .ok a h') (hp : P a h') : Holds x h P E := by
  unfold Holds; rw [hx]; exact hp

/-! ### Counting -/

def cntOf (h : Heap) (r : Ref) : Nat := match h[r]? with | some o => o.cnt | none => 0

def allRefs (h : Heap) : List Ref := h.flatMap Obj.refs

theorem cntOf_some {h : Heap} {r : Ref} {o : Obj} (e : h[r]? = some o) : cntOf h r = o.cnt := by unfold cntOf; rw [e]

theorem lt_of_some {h : Heap} {r : Ref} {o : Obj} (e : h[r]? = some o) : r < h.length := (List.getElem?_eq_some_iff.1 e).1

theorem set_get (h : Heap) {x : Ref} {o : Obj} (e : h[x]? = some o) (o' : Obj) (y : Ref) : (h.set x o')[y]? = if y = x then some o' else h[y]? := by
  by_cases hy : y = x
  · subst hy
    rw [if_pos rfl, List.getElem?_set_self (lt_of_some e)]
  · rw [if_neg hy, List.getElem?_set_ne (fun h => hy h.symm)]

theorem append_get (h : Heap) (o : Obj) (y : Ref) : (h ++ [o])[y]? = if y = h.length then some o else h[y]? := by
  by_cases hy : y = h.length
  · subst hy; rw [if_pos rfl, List.getElem?_concat_length]
  · rw [if_neg hy]
    by_cases hl : y < h.length
    · rw [List.getElem?_append_left hl]
    · have h1 : (h ++ [o]).length ≤ y := by simp; omega
      have h2 : h.length ≤ y := by omega
      rw [List.getElem?_eq_none h1, List.getElem?_eq_none h2]

theorem allRefs_set : ∀ (h : Heap) (x : Nat) (o o' : Obj) (r : Ref), h[x]? = some o →
    (allRefs (h.set x o')).count r + o.refs.count r = (allRefs h).count r + o'.refs.count r := by
  intro h
  induction h with
  | nil => intro x o o' r e; simp at e
  | cons a h ih =>
    intro x o o' r e
    cases x with
    | zero =>
      rw [List.getElem?_cons_zero] at e
      cases e
      simp only [allRefs, List.set_cons_zero, List.flatMap_cons, List.count_append]
      omega
    | succ x =>
      rw [List.getElem?_cons_succ] at e
      have := ih x o o' r e
      simp only [allRefs, List.set_cons_succ, List.flatMap_cons, List.count_append] at this ⊢
      omega

theorem allRefs_append (h : Heap) (o : Obj) (r : Ref) : (allRefs (h ++ [o])).count r = (allRefs h).count r + o.refs.count r := by
  simp [allRefs, List.flatMap_append, List.count_append]

theorem sum_set : ∀ (h : Heap) (x : Nat) (o o' : Obj), h[x]? = some o → ((h.set x o').map Obj.cnt).sum + o.cnt = (h.map Obj.cnt).sum + o'.cnt := by
  intro h
  induction h with
  | nil => intro x o o' e; simp at e
  | cons a h ih =>
    intro x o o' e
    cases x with
    | zero =>
      rw [List.getElem?_cons_zero] at e
      cases e
      simp only [List.set_cons_zero, List.map_cons, List.sum_cons]
      omega
    | succ x =>
      rw [List.getElem?_cons_succ] at e
      have := ih x o o' e
      simp only [List.set_cons_succ, List.map_cons, List.sum_cons]
      omega

theorem mem_allRefs {h : Heap} {x : Ref} {o : Obj} {k : Ref} (e : h[x]? = some o) (hk : k ∈ o.refs) : k ∈ allRefs h :=
  List.mem_flatMap.2 ⟨o, List.mem_of_getElem? e, hk⟩

/-- Two objects that own the same. -/
theorem count_two : ∀ (h : Heap) (x y : Nat) (o o' : Obj) (r : Ref), x ≠ y → h[x]? = some o → h[y]? = some o' → o.refs.count r + o'.refs.count r ≤ (allRefs h).count r := by
  intro h
  have one : ∀ (h : Heap) (x : Nat) (o : Obj) (r : Ref), h[x]? = some o → o.refs.count r ≤ (allRefs h).count r := by
    intro h x o r e
    have := allRefs_set h x o ⟨o.kind, 0, [], none, 0⟩ r e
    have : ((⟨o.kind, 0, [], none, 0⟩ : Obj).refs).count r = 0 := rfl
    omega
  induction h with
  | nil => intro x y o o' r _ e; simp at e
  | cons a h ih =>
    intro x y o o' r hne e e'
    simp only [allRefs, List.flatMap_cons, List.count_append]
    cases x with
    | zero =>
      cases y with
      | zero => exact absurd rfl hne
      | succ y =>
        rw [List.getElem?_cons_zero] at e
        rw [List.getElem?_cons_succ] at e'
        cases e
        have := one h y o' r e'
        simp only [allRefs] at this
        omega
    | succ x =>
      cases y with
      | zero =>
        rw [List.getElem?_cons_zero] at e'
        rw [List.getElem?_cons_succ] at e
        cases e'
        have := one h x o r e
        simp only [allRefs] at this
        omega
      | succ y =>
        rw [List.getElem?_cons_succ] at e e'
        have := ih x y o o' r (by omega) e e'
        simp only [allRefs] at this
        omega

/-! ### The invariant -/

/-- What may be owned by what. -/
def kidOk : Kind → Kind → Bool
  | .bool _ _, .clause _ => true
  | .bool _ _, _ => false
  | .clause _, k => k.isQuery
  | .filtered, k => k.isQuery
  | .span, k => k.isQuery
  | _, _ => true

def Kind.single : Kind → Bool
  | .clause _ | .filtered => true
  | _ => false

def Owns (h : Heap) (o : Obj) : Prop := ∀ k ∈ o.refs, ∃ ok, h[k]? = some ok ∧ ok.rank < o.rank ∧ (k ∈ o.kids → kidOk o.kind ok.kind = true)

structure Shape (o : Obj) : Prop where
  zero : o.cnt = 0 → o.refs = []
  single : 0 < o.cnt → o.kind.single = true → o.kids.length = 1
  range : o.kind = .range → 1 ≤ o.rank
  plain : ∀ off m, o.kind = .bool off m → off = false ∧ o.aux = none

/-- Counts are the numbers of references: those that objects own, and `R`. -/
structure St (h : Heap) (R : List Ref) : Prop where
  count : ∀ r, cntOf h r = R.count r + (allRefs h).count r
  owns : ∀ (x : Ref) (o : Obj), h[x]? = some o → Owns h o
  shape : ∀ (x : Ref) (o : Obj), h[x]? = some o → Shape o

/-- Kinds and ranks stay. -/
def Keep (h h' : Heap) : Prop := ∀ (x : Ref) (o : Obj), h[x]? = some o → ∃ o', h'[x]? = some o' ∧ o'.kind = o.kind ∧ o'.rank = o.rank

/-- Nothing of higher rank is written to. -/
def Above (n : Nat) (h h' : Heap) : Prop := ∀ (x : Ref) (o : Obj), h[x]? = some o → n < o.rank → h'[x]? = some o

theorem Keep.refl (h : Heap) : Keep h h := fun _ o e => ⟨o, e, rfl, rfl⟩
theorem Keep.trans {a b c : Heap} (h1 : Keep a b) (h2 : Keep b c) : Keep a c := by
  intro x o e
  obtain ⟨o1, e1, k1, r1⟩ := h1 x o e
  obtain ⟨o2, e2, k2, r2⟩ := h2 x o1 e1
  exact ⟨o2, e2, k2.trans k1, r2.trans r1⟩
theorem Above.refl (n : Nat) (h : Heap) : Above n h h := fun _ _ e _ => e
theorem Above.trans {n : Nat} {a b c : Heap} (h1 : Above n a b) (h2 : Above n b c) : Above n a c := fun x o e hr => h2 x o (h1 x o e hr) hr
theorem Above.mono {m n : Nat} {a b : Heap} (h : Above m a b) (hmn : m ≤ n) : Above n a b := fun x o e hr => h x o e (by omega)

theorem St.congr {h : Heap} {R R' : List Ref} (hs : St h R) (e : ∀ r, R.count r = R'.count r) : St h R' :=
  ⟨fun r => by rw [hs.count r, e r], hs.owns, hs.shape⟩

theorem keep_set {h : Heap} {x : Ref} {o o' : Obj} (e : h[x]? = some o) (hk : o'.kind = o.kind) (hr : o'.rank = o.rank) : Keep h (h.set x o') := by
  intro y oy ey
  rw [set_get h e]
  by_cases hy : y = x
  · subst hy
    rw [if_pos rfl]
    rw [e] at ey
    cases ey
    exact ⟨o', rfl, hk, hr⟩
  · rw [if_neg hy]; exact ⟨oy, ey, rfl, rfl⟩

theorem above_set {h : Heap} {x : Ref} {o o' : Obj} (e : h[x]? = some o) {n : Nat} (hr : o.rank ≤ n) : Above n h (h.set x o') := by
  intro y oy ey hy
  rw [set_get h e, if_neg]
  · exact ey
  · intro hyx
    rw [hyx, e] at ey
    cases ey
    omega

theorem keep_append (h : Heap) (o : Obj) : Keep h (h ++ [o]) := by
  intro y oy ey
  rw [append_get, if_neg (by have := lt_of_some ey; omega)]
  exact ⟨oy, ey, rfl, rfl⟩

theorem above_append (h : Heap) (o : Obj) (n : Nat) : Above n h (h ++ [o]) := by
  intro y oy ey _
  rw [append_get, if_neg (by have := lt_of_some ey; omega)]
  exact ey

theorem owns_keep {h h' : Heap} {o : Obj} (ho : Owns h o) (hk : Keep h h') : Owns h' o := by
  intro k hkr
  obtain ⟨ok, ek, hr, hkind⟩ := ho k hkr
  obtain ⟨ok', ek', k', r'⟩ := hk k ok ek
  exact ⟨ok', ek', by omega, fun hm => by rw [k']; exact hkind hm⟩

theorem St.set {h : Heap} {R R' : List Ref} {x : Ref} {o : Obj} (hs : St h R) (e : h[x]? = some o) (o' : Obj) (hk : o'.kind = o.kind) (hr : o'.rank = o.rank)
    (hc : ∀ r, (if r = x then o'.cnt else 0) + R.count r + o.refs.count r = (if r = x then o.cnt else 0) + R'.count r + o'.refs.count r)
    (hown : Owns h o') (hsh : Shape o') : St (h.set x o') R' := by
  have hkeep := keep_set (o' := o') e hk hr
  refine ⟨?_, ?_, ?_⟩
  · intro r
    have h1 := hs.count r
    have h2 := allRefs_set h x o o' r e
    have h3 := hc r
    have : cntOf (h.set x o') r = if r = x then o'.cnt else cntOf h r := by
      unfold cntOf
      rw [set_get h e]
      by_cases hrx : r = x
      · rw [if_pos hrx, if_pos hrx]
      · rw [if_neg hrx, if_neg hrx]
    rw [this]
    by_cases hrx : r = x
    · rw [if_pos hrx]
      rw [if_pos hrx, if_pos hrx] at h3
      rw [hrx, cntOf_some e] at h1
      subst hrx
      omega
    · rw [if_neg hrx]
      rw [if_neg hrx, if_neg hrx] at h3
      omega
  · intro y oy ey
    rw [set_get h e] at ey
    by_cases hy : y = x
    · rw [if_pos hy] at ey; cases ey; exact owns_keep hown hkeep
    · rw [if_neg hy] at ey; exact owns_keep (hs.owns y oy ey) hkeep
  · intro y oy ey
    rw [set_get h e] at ey
    by_cases hy : y = x
    · rw [if_pos hy] at ey; cases ey; exact hsh
    · rw [if_neg hy] at ey; exact hs.shape y oy ey

theorem St.alloc {h : Heap} {R R' : List Ref} (hs : St h R) (o : Obj) (hc : ∀ r, R.count r = R'.count r + o.refs.count r) (h1 : o.cnt = 1)
    (hown : Owns h o) (hsh : Shape o) : St (h ++ [o]) (h.length :: R') := by
  refine ⟨?_, ?_, ?_⟩
  · intro r
    have hr := hs.count r
    have hcr := hc r
    rw [allRefs_append, List.count_cons]
    have : cntOf (h ++ [o]) r = if r = h.length then 1 else cntOf h r := by
      unfold cntOf
      rw [append_get]
      by_cases hrx : r = h.length
      · rw [if_pos hrx, if_pos hrx]; exact h1
      · rw [if_neg hrx, if_neg hrx]
    rw [this]
    by_cases hrx : r = h.length
    · have h0 : cntOf h r = 0 := by unfold cntOf; rw [List.getElem?_eq_none (by omega)]
      rw [if_pos hrx]
      simp only [hrx, beq_self_eq_true, if_true]
      subst hrx
      omega
    · rw [if_neg hrx]
      have : (h.length == r) = false := by simp; omega
      rw [this]
      simp only [Bool.false_eq_true, if_false]
      omega
  · intro y oy ey
    rw [append_get] at ey
    by_cases hy : y = h.length
    · rw [if_pos hy] at ey; cases ey; exact owns_keep hown (keep_append h _)
    · rw [if_neg hy] at ey; exact owns_keep (hs.owns y oy ey) (keep_append h _)
  · intro y oy ey
    rw [append_get] at ey
    by_cases hy : y = h.length
    · rw [if_pos hy] at ey; cases ey; exact hsh
    · rw [if_neg hy] at ey; exact hs.shape y oy ey

/-- What is referred to is there. -/
theorem St.live {h : Heap} {R : List Ref} (hs : St h R) {r : Ref} (hr : r ∈ R ∨ r ∈ allRefs h) : ∃ o, h[r]? = some o ∧ 0 < o.cnt := by
  have h1 := hs.count r
  have : 0 < cntOf h r := by
    rcases hr with hr | hr
    · have := List.count_pos_iff.2 hr; omega
    · have := List.count_pos_iff.2 hr; omega
  unfold cntOf at this
  cases e : h[r]? with
  | none => rw [e] at this; simp at this
  | some o => rw [e] at this; exact ⟨o, rfl, this⟩

theorem St.kid {h : Heap} {R : List Ref} (hs : St h R) {x : Ref} {o : Obj} (e : h[x]? = some o) {k : Ref} (hk : k ∈ o.kids) :
    ∃ ok, h[k]? = some ok ∧ 0 < ok.cnt ∧ ok.rank < o.rank ∧ kidOk o.kind ok.kind = true := by
  have hkr : k ∈ o.refs := List.mem_append_left _ hk
  obtain ⟨ok, ek, hr, hkind⟩ := hs.owns x o e k hkr
  obtain ⟨ok', ek', hl⟩ := hs.live (.inr (mem_allRefs e hkr))
  rw [ek] at ek'
  cases ek'
  exact ⟨ok, ek, hl, hr, hkind hk⟩

theorem get_ok {h : Heap} {r : Ref} {o : Obj} (e : h[r]? = some o) (hl : 0 < o.cnt) : get r h = .ok o h := by
  unfold get; rw [e]; show (if _ then _ else _) = _; rw [if_neg (by omega)]

theorem Holds.get {h : Heap} {r : Ref} {o : Obj} {β : Type} {f : Obj → M β} {P : β → Heap → Prop} {E : Heap → Prop} (e : h[r]? = some o) (hl : 0 < o.cnt)
    (hf : Holds (f o) h P E) : Holds (get r >>= f) h P E :=
  Holds.bind (P := fun a h' => a = o ∧ h' = h) (Holds.of_ok (get_ok e hl) ⟨rfl, rfl⟩) (by rintro a h' ⟨rfl, rfl⟩; exact hf)

theorem Holds.step {α β : Type} {x : M α} {f : α → M β} {h h' : Heap} {a : α} {P : β → Heap → Prop} {E : Heap → Prop} (e : x h = .ok a h') (hf : Holds (f a) h' P E) : Holds (x >>= f) h P E :=
  Holds.bind (P := fun a1 h1 => a1 = a ∧ h1 = h') (Holds.of_ok e ⟨rfl, rfl⟩) (by rintro a1 h1 ⟨rfl, rfl⟩; exact hf)

/-- After an exception something may be left that nobody will give up. -/
def Exc (h : Heap) (R : List Ref) (h' : Heap) : Prop := ∃ ex, St h' (ex ++ R) ∧ Keep h h'

theorem Exc.trans {h h1 h2 : Heap} {R R1 : List Ref} (hk : Keep h h1) (ex : List Ref) (hR : ∀ r, R1.count r = (ex ++ R).count r) (he : Exc h1 R1 h2) : Exc h R h2 := by
  obtain ⟨ex1, hs, hk1⟩ := he
  refine ⟨ex1 ++ ex, hs.congr ?_, hk.trans hk1⟩
  intro r
  have := hR r
  simp only [List.count_append] at this ⊢
  omega

/-! ### REF and DEREF -/

theorem ref_ok {h : Heap} {R : List Ref} {r : Ref} {o : Obj} (hs : St h R) (e : h[r]? = some o) (hl : 0 < o.cnt) :
    ref r h = .ok () (h.set r { o with cnt := o.cnt + 1 }) ∧ St (h.set r { o with cnt := o.cnt + 1 }) (r :: R) := by
  constructor
  · show (M.bind (get r) _) h = _
    unfold M.bind
    rw [get_ok e hl]
    rfl
  · refine hs.set e _ rfl rfl ?_ (hs.owns r o e) ?_
    · intro y
      rw [List.count_cons]
      by_cases hy : y = r
      · subst hy; simp [Obj.refs]; omega
      · have : (r == y) = false := by simp; omega
        simp [hy, this, Obj.refs]
    · have := hs.shape r o e
      exact ⟨fun h => by simp at h, fun _ => this.single hl, this.range, this.plain⟩

theorem unref_ok {h : Heap} {R : List Ref} {r : Ref} {o : Obj} (hs : St h (r :: R)) (e : h[r]? = some o) (hl : 2 ≤ o.cnt) :
    unref r h = .ok () (h.set r { o with cnt := o.cnt - 1 }) ∧ St (h.set r { o with cnt := o.cnt - 1 }) R := by
  constructor
  · show (M.bind (get r) _) h = _
    unfold M.bind
    rw [get_ok e (by omega)]
    rfl
  · refine hs.set e _ rfl rfl ?_ (hs.owns r o e) ?_
    · intro y
      rw [List.count_cons]
      by_cases hy : y = r
      · subst hy; simp [Obj.refs]; omega
      · have : (r == y) = false := by simp; omega
        simp [hy, this, Obj.refs]
    · have := hs.shape r o e
      exact ⟨fun h => by simp at h; omega, fun _ => this.single (by omega), this.range, this.plain⟩

theorem put_ok (h : Heap) (r : Ref) (o : Obj) : put r o h = .ok () (h.set r o) := rfl
theorem alloc_ok (h : Heap) (o : Obj) : alloc o h = .ok h.length (h ++ [o]) := rfl

/-! ### Giving up -/

theorem drop_ok : ∀ (n : Nat) (work : List Ref) (h : Heap) (R : List Ref) (ρ : Nat), St h (work ++ R) → (h.map Obj.cnt).sum ≤ n →
    (∀ r ∈ work, rankOf h r ≤ ρ) → ∃ h', drop n work h = .ok () h' ∧ St h' R ∧ Keep h h' ∧ Above ρ h h' := by
  intro n
  induction n with
  | zero =>
    intro work h R ρ hs hn _
    cases work with
    | nil => exact ⟨h, rfl, hs, Keep.refl h, Above.refl ρ h⟩
    | cons r work =>
      exfalso
      obtain ⟨o, e, hl⟩ := hs.live (r := r) (.inl (by simp))
      have := sum_set h r o { o with cnt := 0 } e
      have h0 : (({ o with cnt := 0 } : Obj)).cnt = 0 := rfl
      omega
  | succ n ih =>
    intro work h R ρ hs hn hρ
    cases work with
    | nil => exact ⟨h, rfl, hs, Keep.refl h, Above.refl ρ h⟩
    | cons r work =>
      obtain ⟨o, e, hl⟩ := hs.live (r := r) (.inl (by simp))
      have hrank : o.rank ≤ ρ := by
        have := hρ r (by simp)
        unfold rankOf at this
        rw [e] at this
        exact this
      have hd : drop (n + 1) (r :: work) h = (if o.cnt = 1 then drop n (o.refs ++ work) (h.set r { o with cnt := 0, kids := [], aux := none }) else drop n work (h.set r { o with cnt := o.cnt - 1 })) := by
        show (M.bind (get r) _) h = _
        unfold M.bind
        rw [get_ok e hl]
        by_cases h1 : o.cnt = 1
        · simp only [if_pos h1]; rfl
        · simp only [if_neg h1]; rfl
      by_cases h1 : o.cnt = 1
      · rw [if_pos h1] at hd
        have hs' : St (h.set r { o with cnt := 0, kids := [], aux := none }) ((o.refs ++ work) ++ R) := by
          refine hs.set e _ rfl rfl ?_ ?_ ?_
          · intro y
            simp only [List.cons_append, List.count_append, List.count_cons]
            by_cases hy : y = r
            · subst hy; simp [Obj.refs, h1]; omega
            · have : (r == y) = false := by simp; omega
              simp [hy, this, Obj.refs]; omega
          · intro k hk; simp [Obj.refs] at hk
          · have := hs.shape r o e
            exact ⟨fun _ => rfl, fun h => by simp at h, this.range, fun off m hk => ⟨(this.plain off m hk).1, rfl⟩⟩
        have hsum := sum_set h r o { o with cnt := 0, kids := [], aux := none } e
        have h0 : (({ o with cnt := 0, kids := [], aux := none } : Obj)).cnt = 0 := rfl
        have hkeep : Keep h (h.set r { o with cnt := 0, kids := [], aux := none }) := keep_set e rfl rfl
        obtain ⟨h', e', hs'', hk, ha⟩ := ih (o.refs ++ work) _ R ρ hs' (by omega) (by
          intro y hy
          have hrk : rankOf (h.set r { o with cnt := 0, kids := [], aux := none }) y = rankOf h y := by
            unfold rankOf
            rw [set_get h e]
            by_cases hy : y = r
            · rw [if_pos hy, hy, e]
            · rw [if_neg hy]
          rw [hrk]
          rcases List.mem_append.1 hy with hy | hy
          · obtain ⟨ok, ek, hr, _⟩ := hs.owns r o e y hy
            unfold rankOf
            rw [ek]
            show ok.rank ≤ ρ
            omega
          · exact hρ y (List.mem_cons_of_mem _ hy))
        exact ⟨h', by rw [hd]; exact e', hs'', hkeep.trans hk, (above_set e hrank).trans ha⟩
      · rw [if_neg h1] at hd
        have hs' := (unref_ok (R := work ++ R) hs e (by omega)).2
        have hsum := sum_set h r o { o with cnt := o.cnt - 1 } e
        have h0 : (({ o with cnt := o.cnt - 1 } : Obj)).cnt = o.cnt - 1 := rfl
        have hkeep : Keep h (h.set r { o with cnt := o.cnt - 1 }) := keep_set e rfl rfl
        obtain ⟨h', e', hs'', hk, ha⟩ := ih work _ R ρ hs' (by omega) (by
          intro y hy
          have hrk : rankOf (h.set r { o with cnt := o.cnt - 1 }) y = rankOf h y := by
            unfold rankOf
            rw [set_get h e]
            by_cases hy : y = r
            · rw [if_pos hy, hy, e]
            · rw [if_neg hy]
          rw [hrk]
          exact hρ y (List.mem_cons_of_mem _ hy))
        exact ⟨h', by rw [hd]; exact e', hs'', hkeep.trans hk, (above_set e hrank).trans ha⟩

theorem release_ok {h : Heap} {R work : List Ref} {ρ : Nat} (hs : St h (work ++ R)) (hρ : ∀ r ∈ work, rankOf h r ≤ ρ) :
    ∃ h', release work h = .ok () h' ∧ St h' R ∧ Keep h h' ∧ Above ρ h h' := drop_ok _ work h R ρ hs (Nat.le_succ _) hρ

end Ferret.Rc
