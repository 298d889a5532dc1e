import Verif.Model.Norms
import Verif.Lemmas.Readers
import Verif.Props.C14

/-! Lemmas for C93: norms. -/

namespace Ferret.Norms
open Ferret Ferret.Spec Ferret.Sis Ferret.Rdr Ferret.Dlr Ferret.Names

local notation "Store" => Name → Option (List Byte)

/-! ### Names -/

def normExt (c : Bool) (g : Int) : Name := if c = true ∧ g > 0 then [115] else [102]

theorem normExt_ge (c : Bool) (g : Int) : ∀ x ∈ normExt c g, 97 ≤ x.toNat := by
  unfold normExt
  split <;> (intro x hx; rw [List.mem_singleton] at hx; subst hx; decide)

theorem name_exists {base : Name} {c : Bool} {g : Int} {f : Nat} (hb : base.length ≤ 60) (h0 : 0 ≤ g) (h1 : g < 2 ^ 31) (hf : f < 2 ^ 31) :
    ∃ name, fnForGenField base (normExt c g) g f = .ok (some name) := by
  obtain ⟨d, hd, he⟩ := Props.c14_norm_name base (normExt c g) g f hf
  obtain ⟨d', hd', -, -, hl⟩ := decimal_spec f hf
  rw [hd] at hd'
  cases hd'
  rw [he]
  refine Props.c14_name_exists base _ g hb ?_ ?_
  · intro e hx
    cases hx
    rw [List.length_append]
    have : (normExt c g).length = 1 := by unfold normExt; split <;> rfl
    omega
  · unfold Props.isGen
    omega

/-- Names of norms of a segment. -/
def Ours (base name : Name) : Prop := ∃ c g f, 0 ≤ g ∧ g < 2 ^ 31 ∧ f < 2 ^ 31 ∧ fnForGenField base (normExt c g) g f = .ok (some name)

theorem name_inj {b b' : Name} {c c' : Bool} {g g' : Int} {f f' : Nat} {name : Name} (h0 : 0 ≤ g) (h1 : g < 2 ^ 31) (h2 : f < 2 ^ 31) (h0' : 0 ≤ g') (h1' : g' < 2 ^ 31) (h2' : f' < 2 ^ 31)
    (h : fnForGenField b (normExt c g) g f = .ok (some name)) (h' : fnForGenField b' (normExt c' g') g' f' = .ok (some name)) : b = b' ∧ g = g' ∧ f = f' := by
  obtain ⟨e1, e2, _, e3⟩ := Props.c14_norm_names_distinct b b' _ _ g g' f f' name (by unfold Props.isGen; omega) (by unfold Props.isGen; omega) h2 h2' (normExt_ge _ _) (normExt_ge _ _) h h'
  exact ⟨e1, e2, e3⟩

theorem Ours.base {b b' n : Name} (h : Ours b n) (h' : Ours b' n) : b = b' := by
  obtain ⟨c, g, f, a1, a2, a3, a4⟩ := h
  obtain ⟨c', g', f', b1, b2, b3, b4⟩ := h'
  exact (name_inj a1 a2 a3 b1 b2 b3 a4 b4).1

theorem normFileName_some {si : SI} {f : Nat} {g : Int} (hg : si.normGens[f]? = some g) (h0 : 0 ≤ g) : normFileName si f = fnForGenField si.name (normExt si.compound g) g f := by
  unfold normFileName
  rw [hg]
  show (if g < 0 then _ else _) = _
  rw [if_neg (by omega)]
  rfl

theorem normFileName_neg {si : SI} {f : Nat} {g : Int} (hg : si.normGens[f]? = some g) (h0 : g < 0) : normFileName si f = .ok none := by
  unfold normFileName
  rw [hg]
  exact if_pos h0

/-- Where the norms of a field are. -/
def place (files : Store) (cfs : Name → Store) (si : SI) (f : Nat) : Store := if si.compound ∧ si.normGens[f]? = some 0 then cfs si.name else files

/-! ### Segments -/

def rowAt (m : Nat → Nat → Byte) (s size f : Nat) : List Byte := (List.range size).map fun o => m (s + o) f

theorem rowAt_length (m : Nat → Nat → Byte) (s size f : Nat) : (rowAt m s size f).length = size := by simp [rowAt]

def siSize (si : SI) : Nat := si.docCnt.toNat

/-- A field of a segment on disk. -/
def Stored (files : Store) (cfs : Name → Store) (si : SI) (f : Nat) (row : List Byte) : Prop :=
  ∃ name c, normFileName si f = .ok (some name) ∧ place files cfs si f name = some c ∧ siSize si ≤ c.length ∧ c.take (siSize si) = row

/-- A segment on disk, from document `s` on. -/
structure SiOk (files : Store) (cfs : Name → Store) (has : Nat → Nat → Bool) (m : Nat → Nat → Byte) (k s : Nat) (si : SI) : Prop where
  base : si.name.length ≤ 60
  len : si.normGens.length ≤ 2 ^ 31
  gen : ∀ (f : Nat) (g : Int), si.normGens[f]? = some g → 0 ≤ g → g + k < 2 ^ 31
  has : ∀ (f o : Nat), o < siSize si → has (s + o) f = match si.normGens[f]? with | some g => decide (0 ≤ g) | none => false
  data : ∀ (f : Nat) (g : Int), si.normGens[f]? = some g → 0 ≤ g → Stored files cfs si f (rowAt m s (siSize si) f)

/-- A segment reader, from document `s` on. -/
structure SegOk (files : Store) (cfs : Name → Store) (queue : List Name) (fields : List Bool) (has : Nat → Nat → Bool) (m : Nat → Nat → Byte) (k s : Nat) (r : Sr) : Prop where
  base : r.si.name.length ≤ 60
  len : r.si.normGens.length ≤ 2 ^ 31
  gen : ∀ (f : Nat) (n : Norm), r.norms f = some n → ∃ g : Int, r.si.normGens[f]? = some g ∧ 0 ≤ g ∧ g + k < 2 ^ 31 ∧ (n.dirty = true → g + k + 1 < 2 ^ 31)
  absent : ∀ (f : Nat) (g : Int), r.norms f = none → r.si.normGens[f]? = some g → g < 0
  has : ∀ (f o : Nat), o < r.size → has (s + o) f = (r.norms f).isSome
  data : ∀ (f : Nat) (n : Norm), r.norms f = some n → ∃ row, Stored files cfs r.si f row ∧ (n.dirty = false → row = rowAt m s r.size f)
  bytes : ∀ (f : Nat) (n : Norm), r.norms f = some n → (n.bytes = some (rowAt m s r.size f)) ∨
    (n.bytes = none ∧ n.dirty = false ∧ r.size ≤ n.file.length ∧ n.file.take r.size = rowAt m s r.size f)
  queue : ∀ q ∈ queue, ∀ (c : Bool) (g' : Int) (f : Nat), 0 ≤ g' → g' < 2 ^ 31 → f < 2 ^ 31 → fnForGenField r.si.name (normExt c g') g' f = .ok (some q) →
    ∀ g : Int, r.si.normGens[f]? = some g → g' < g
  idx : ∀ (f : Nat) (n : Norm), r.norms f = some n → fields[f]? = some true
  clean : r.dirty = false → ∀ (f : Nat) (n : Norm), r.norms f = some n → n.dirty = false
  quiet : r.changes = false → r.dirty = false

section
variable {files : Store} {cfs : Name → Store} {queue : List Name} {fields : List Bool} {has : Nat → Nat → Bool} {m saved : Nat → Nat → Byte} {k s : Nat} {r : Sr}

theorem SegOk.fld (h : SegOk files cfs queue fields has m k s r) {f : Nat} {n : Norm} (e : r.norms f = some n) : f < 2 ^ 31 := by
  obtain ⟨g, hg, _⟩ := h.gen f n e
  have := (List.getElem?_eq_some_iff.1 hg).1
  have := h.len
  omega

/-- Without dirt a reader is what is on disk. -/
theorem SegOk.disk (h : SegOk files cfs queue fields has m k s r) (hd : ∀ (f : Nat) (n : Norm), r.norms f = some n → n.dirty = false) : SiOk files cfs has m k s r.si := by
  have key : ∀ (f : Nat) (g : Int), r.si.normGens[f]? = some g → 0 ≤ g → ∃ n, r.norms f = some n := by
    intro f g hg h0
    cases e : r.norms f with
    | some n => exact ⟨n, rfl⟩
    | none => have := h.absent f g e hg; omega
  refine ⟨h.base, h.len, ?_, ?_, ?_⟩
  · intro f g hg h0
    obtain ⟨n, e⟩ := key f g hg h0
    obtain ⟨g', hg', _, h2, _⟩ := h.gen f n e
    rw [hg] at hg'
    cases hg'
    exact h2
  · intro f o ho
    rw [h.has f o ho]
    cases e : r.norms f with
    | some n =>
      obtain ⟨g, hg, h0, _⟩ := h.gen f n e
      rw [hg]
      simp [h0]
    | none =>
      cases eg : r.si.normGens[f]? with
      | none => rfl
      | some g => have := h.absent f g e eg; simp; omega
  · intro f g hg h0
    obtain ⟨n, e⟩ := key f g hg h0
    obtain ⟨row, h1, h2⟩ := h.data f n e
    rw [h2 (hd f n e)] at h1
    exact h1

/-- The bytes of a field. -/
theorem srInto_ok (h : SegOk files cfs queue fields has m k s r) (f : Nat) :
    srInto r f = .ok ((List.range r.size).map fun o => if has (s + o) f then m (s + o) f else 0) := by
  have hrow : ∀ b, (∀ o, o < r.size → has (s + o) f = b) →
      ((List.range r.size).map fun o => if has (s + o) f then m (s + o) f else 0) = if b then rowAt m s r.size f else List.replicate r.size 0 := by
    intro b hb
    cases b
    · refine List.ext_getElem (by simp) ?_
      intro i h1 h2
      simp only [List.length_map, List.length_range] at h1
      simp [hb i h1]
    · show _ = rowAt m s r.size f
      unfold rowAt
      refine List.map_congr_left ?_
      intro o ho
      simp [hb o (List.mem_range.1 ho)]
  rw [hrow _ (h.has f)]
  unfold srInto
  cases e : r.norms f with
  | none => rfl
  | some n =>
    rcases h.bytes f n e with hb | ⟨hb, _, hl, ht⟩
    · simp [hb]
    · simp [hb, readBytes, hl, ht]

theorem srNorms_ok (h : SegOk files cfs queue fields has m k s r) (f : Nat) :
    ∃ r', srNorms r f = .ok (if (r.norms f).isSome then some (rowAt m s r.size f) else none, r') ∧ SegOk files cfs queue fields has m k s r' ∧ r'.si = r.si ∧
      r'.changes = r.changes := by
  unfold srNorms
  cases e : r.norms f with
  | none => exact ⟨r, rfl, h, rfl, rfl⟩
  | some n =>
    rcases h.bytes f n e with hb | ⟨hb, hd, hl, ht⟩
    · simp only [hb]
      exact ⟨r, rfl, h, rfl, rfl⟩
    · have hi : srInto r f = .ok (rowAt m s r.size f) := by
        unfold srInto
        simp [e, hb, readBytes, hl, ht]
      simp only [hb, hi, Res.ok_bind]
      refine ⟨_, rfl, ?_, rfl, rfl⟩
      have back : ∀ (f' : Nat) (n' : Norm), (if f' = f then some { n with bytes := some (rowAt m s r.size f) } else r.norms f') = some n' →
          ∃ n0, r.norms f' = some n0 ∧ n'.dirty = n0.dirty ∧ ((f' = f ∧ n'.bytes = some (rowAt m s r.size f)) ∨ (n' = n0)) := by
        intro f' n' h'
        by_cases hf : f' = f
        · rw [if_pos hf] at h'
          cases h'
          exact ⟨n, by rw [hf]; exact e, rfl, .inl ⟨hf, rfl⟩⟩
        · rw [if_neg hf] at h'
          exact ⟨n', h', rfl, .inr rfl⟩
      refine ⟨h.base, h.len, ?_, ?_, ?_, ?_, ?_, h.queue, ?_, ?_, h.quiet⟩
      · intro f' n' h'
        obtain ⟨n0, e0, hd0, _⟩ := back f' n' h'
        rw [hd0]
        exact h.gen f' n0 e0
      · intro f' g h' hg
        by_cases hf : f' = f
        · have h' : (if f' = f then _ else r.norms f') = none := h'
          rw [if_pos hf] at h'
          cases h'
        · have h' : (if f' = f then _ else r.norms f') = none := h'
          rw [if_neg hf] at h'
          exact h.absent f' g h' hg
      · intro f' o ho
        rw [h.has f' o ho]
        show _ = (if f' = f then _ else r.norms f').isSome
        by_cases hf : f' = f
        · rw [if_pos hf, hf, e]; rfl
        · rw [if_neg hf]
      · intro f' n' h'
        obtain ⟨n0, e0, hd0, _⟩ := back f' n' h'
        rw [hd0]
        exact h.data f' n0 e0
      · intro f' n' h'
        obtain ⟨n0, e0, hd0, hb'⟩ := back f' n' h'
        rcases hb' with ⟨hf, hb'⟩ | rfl
        · rw [hf]
          exact .inl hb'
        · exact h.bytes f' n' e0
      · intro f' n' h'
        obtain ⟨n0, e0, _, _⟩ := back f' n' h'
        exact h.idx f' n0 e0
      · intro hcl f' n' h'
        obtain ⟨n0, e0, hd0, _⟩ := back f' n' h'
        rw [hd0]
        exact h.clean hcl f' n0 e0

theorem rowAt_set {m : Nat → Nat → Byte} {s size f o : Nat} {v : Byte} (ho : o < size) (f' : Nat) :
    rowAt (fun d' f'' => if d' = s + o ∧ f'' = f then v else m d' f'') s size f' = if f' = f then (rowAt m s size f).set o v else rowAt m s size f' := by
  unfold rowAt
  by_cases hf : f' = f
  · subst hf
    rw [if_pos rfl]
    refine List.ext_getElem (by simp) ?_
    intro i h1 h2
    simp only [List.length_map, List.length_range] at h1
    simp only [List.getElem_map, List.getElem_range, List.getElem_set, and_true]
    by_cases hi : o = i
    · subst hi; simp
    · rw [if_neg (by omega), if_neg hi]
  · rw [if_neg hf]
    refine List.map_congr_left ?_
    intro i _
    exact if_neg (by rintro ⟨_, h⟩; exact hf h)

theorem rowAt_out {m : Nat → Nat → Byte} {s size f d : Nat} {v : Byte} (ho : d < s ∨ s + size ≤ d) (f' : Nat) :
    rowAt (fun d' f'' => if d' = d ∧ f'' = f then v else m d' f'') s size f' = rowAt m s size f' := by
  unfold rowAt
  refine List.map_congr_left ?_
  intro i hi
  have := List.mem_range.1 hi
  exact if_neg (by rintro ⟨h, _⟩; omega)

/-- Other rows. -/
theorem SegOk.rows (h : SegOk files cfs queue fields has m k s r) {m' : Nat → Nat → Byte} (hm : ∀ f, rowAt m' s r.size f = rowAt m s r.size f) : SegOk files cfs queue fields has m' k s r := by
  refine ⟨h.base, h.len, h.gen, h.absent, h.has, ?_, ?_, h.queue, h.idx, h.clean, h.quiet⟩
  · intro f n e
    rw [hm]
    exact h.data f n e
  · intro f n e
    rw [hm]
    exact h.bytes f n e

theorem SegOk.less (h : SegOk files cfs queue fields has m (k + 1) s r) : SegOk files cfs queue fields has m k s r := by
  refine ⟨h.base, h.len, ?_, h.absent, h.has, h.data, h.bytes, h.queue, h.idx, h.clean, h.quiet⟩
  intro f n e
  obtain ⟨g, h1, h2, h3, h4⟩ := h.gen f n e
  exact ⟨g, h1, h2, by omega, fun _ => by omega⟩

theorem srSet_ok (h : SegOk files cfs queue fields has m (k + 1) s r) {o f : Nat} {v : Byte} (ho : o < r.size) :
    ∃ r', srSet r o f v = .ok r' ∧ SegOk files cfs queue fields has (fun d' f' => if d' = s + o ∧ f' = f then v else m d' f') k s r' ∧ r'.si = r.si := by
  unfold srSet
  cases e : r.norms f with
  | none =>
    refine ⟨_, rfl, ?_, rfl⟩
    have h1 := h.less
    have hrow : ∀ f' (n : Norm), r.norms f' = some n → rowAt (fun d' f'' => if d' = s + o ∧ f'' = f then v else m d' f'') s r.size f' = rowAt m s r.size f' := by
      intro f' n e'
      rw [rowAt_set ho, if_neg]
      rintro rfl
      rw [e] at e'
      cases e'
    refine ⟨h1.base, h1.len, h1.gen, h1.absent, h1.has, ?_, ?_, h1.queue, h1.idx, h1.clean, fun h => by cases h⟩
    · intro f' n e'
      show ∃ row, _ ∧ (_ → row = rowAt _ s r.size f')
      rw [hrow f' n e']
      exact h1.data f' n e'
    · intro f' n e'
      show n.bytes = some (rowAt _ s r.size f') ∨ (_ ∧ _ ∧ r.size ≤ _ ∧ List.take r.size _ = rowAt _ s r.size f')
      rw [hrow f' n e']
      exact h1.bytes f' n e'
  | some n =>
    obtain ⟨r1, h1, _, _, _⟩ := srNorms_ok h f
    rw [e] at h1
    simp only [h1, Res.ok_bind, Option.isSome_some, if_true]
    rw [if_pos ⟨by omega, by rw [rowAt_length]; omega⟩]
    refine ⟨_, rfl, ?_, rfl⟩
    have back : ∀ (f' : Nat) (n' : Norm), (if f' = f then some (⟨n.file, some ((rowAt m s r.size f).set (o : Int).toNat v), true⟩ : Norm) else r.norms f') = some n' →
        ∃ n0, r.norms f' = some n0 ∧ ((f' = f ∧ n'.bytes = some ((rowAt m s r.size f).set o v) ∧ n'.dirty = true) ∨ (f' ≠ f ∧ n' = n0)) := by
      intro f' n' h'
      by_cases hf : f' = f
      · rw [if_pos hf] at h'
        cases h'
        exact ⟨n, by rw [hf]; exact e, .inl ⟨hf, rfl, rfl⟩⟩
      · rw [if_neg hf] at h'
        exact ⟨n', h', .inr ⟨hf, rfl⟩⟩
    refine ⟨h.base, h.len, ?_, ?_, ?_, ?_, ?_, h.queue, ?_, (fun h => by cases h), (fun h => by cases h)⟩
    · intro f' n' h'
      obtain ⟨n0, e0, _⟩ := back f' n' h'
      obtain ⟨g, a1, a2, a3, _⟩ := h.gen f' n0 e0
      exact ⟨g, a1, a2, by omega, fun _ => by omega⟩
    · intro f' g h' hg
      have h' : (if f' = f then _ else r.norms f') = none := h'
      by_cases hf : f' = f
      · rw [if_pos hf] at h'
        cases h'
      · rw [if_neg hf] at h'
        exact h.absent f' g h' hg
    · intro f' o' ho'
      rw [h.has f' o' ho']
      show _ = (if f' = f then _ else r.norms f').isSome
      by_cases hf : f' = f
      · rw [if_pos hf, hf, e]; rfl
      · rw [if_neg hf]
    · intro f' n' h'
      show ∃ row, _ ∧ (_ → row = rowAt _ s r.size f')
      obtain ⟨n0, e0, hb⟩ := back f' n' h'
      obtain ⟨row, a1, a2⟩ := h.data f' n0 e0
      refine ⟨row, a1, ?_⟩
      rcases hb with ⟨_, _, hd⟩ | ⟨hf, rfl⟩
      · rw [hd]; intro h; cases h
      · rw [rowAt_set ho, if_neg hf]
        exact a2
    · intro f' n' h'
      show n'.bytes = some (rowAt _ s r.size f') ∨ (_ ∧ _ ∧ r.size ≤ _ ∧ List.take r.size _ = rowAt _ s r.size f')
      obtain ⟨n0, e0, hb⟩ := back f' n' h'
      rw [rowAt_set ho]
      rcases hb with ⟨hf, hb, hd⟩ | ⟨hf, rfl⟩
      · rw [if_pos hf]
        exact .inl hb
      · rw [if_neg hf]
        exact h.bytes f' n' e0
    · intro f' n' h'
      obtain ⟨n0, e0, _⟩ := back f' n' h'
      exact h.idx f' n0 e0

/-! ### Committing a segment -/

/-- What is not a name of these segments is as before. -/
structure Frame (bases : List Name) (files : Store) (queue : List Name) (files' : Store) (queue' : List Name) : Prop where
  files : ∀ n, (∀ b ∈ bases, ¬ Ours b n) → files' n = files n
  queue : ∀ q ∈ queue', q ∈ queue ∨ ∃ b ∈ bases, Ours b q

theorem Frame.refl (bases : List Name) (files : Store) (queue : List Name) : Frame bases files queue files queue := ⟨fun _ _ => rfl, fun _ h => .inl h⟩

theorem Frame.trans {bases : List Name} {f1 f2 f3 : Store} {q1 q2 q3 : List Name} (h : Frame bases f1 q1 f2 q2) (h' : Frame bases f2 q2 f3 q3) : Frame bases f1 q1 f3 q3 := by
  refine ⟨fun n hn => by rw [h'.files n hn, h.files n hn], fun q hq => ?_⟩
  rcases h'.queue q hq with h1 | h1
  · exact h.queue q h1
  · exact .inr h1

theorem Frame.mono {bases bases' : List Name} {f1 f2 : Store} {q1 q2 : List Name} (h : Frame bases f1 q1 f2 q2) (hs : ∀ b ∈ bases, b ∈ bases') : Frame bases' f1 q1 f2 q2 :=
  ⟨fun n hn => h.files n fun b hb => hn b (hs b hb), fun q hq => (h.queue q hq).imp id fun ⟨b, hb, ho⟩ => ⟨b, hs b hb, ho⟩⟩

theorem Stored.of_files {files files' : Store} {cfs : Name → Store} {si : SI} {f : Nat} {row : List Byte} (h : Stored files cfs si f row) {g : Int} (hg : si.normGens[f]? = some g)
    (hn : ∀ name, fnForGenField si.name (normExt si.compound g) g f = .ok (some name) → files' name = files name) (h0 : 0 ≤ g) : Stored files' cfs si f row := by
  obtain ⟨name, c, h1, h2, h3⟩ := h
  refine ⟨name, c, h1, ?_, h3⟩
  unfold place at h2 ⊢
  split
  · rename_i hc
    rw [if_pos hc] at h2
    exact h2
  · rename_i hc
    rw [if_neg hc] at h2
    rw [normFileName_some hg h0] at h1
    rw [hn name h1]
    exact h2

theorem SegOk.frame (h : SegOk files cfs queue fields has m k s r) {bases : List Name} {files' : Store} {queue' : List Name} (hf : Frame bases files queue files' queue')
    (hb : r.si.name ∉ bases) : SegOk files' cfs queue' fields has m k s r := by
  have out : ∀ n, Ours r.si.name n → ∀ b ∈ bases, ¬ Ours b n := by
    intro n ho b hb' ho'
    exact hb (ho.base ho' ▸ hb')
  refine ⟨h.base, h.len, h.gen, h.absent, h.has, ?_, h.bytes, ?_, h.idx, h.clean, h.quiet⟩
  · intro f n e
    obtain ⟨row, h1, h2⟩ := h.data f n e
    obtain ⟨g, hg, h0, hk, _⟩ := h.gen f n e
    exact ⟨row, h1.of_files hg (fun name hn => hf.files name (out name ⟨_, g, f, h0, by omega, h.fld e, hn⟩)) h0, h2⟩
  · intro q hq c g' f h0 h1 h2 hn
    rcases hf.queue q hq with hq | ⟨b, hb', ho⟩
    · exact h.queue q hq c g' f h0 h1 h2 hn
    · exact absurd ho (out q ⟨c, g', f, h0, h1, h2, hn⟩ b hb')

theorem advance_gens {si : SI} {f : Nat} {g : Int} (hg : si.normGens[f]? = some g) (f' : Nat) :
    (advanceNormGen si f).normGens[f']? = if f' = f then some (g + 1) else si.normGens[f']? := by
  have hlt := (List.getElem?_eq_some_iff.1 hg).1
  show ((if f ≥ si.normGens.length then _ else si.normGens).modify f (· + 1))[f']? = _
  rw [if_neg (by omega), List.getElem?_modify]
  by_cases hf : f' = f
  · subst hf
    simp [hg]
  · rw [if_neg hf]
    simp [Ne.symm hf]

theorem advance_length {si : SI} {f : Nat} {g : Int} (hg : si.normGens[f]? = some g) : (advanceNormGen si f).normGens.length = si.normGens.length := by
  have hlt := (List.getElem?_eq_some_iff.1 hg).1
  show ((if f ≥ si.normGens.length then _ else si.normGens).modify f (· + 1)).length = _
  rw [if_neg (by omega), List.length_modify]

theorem rewrite_ok (h : SegOk files cfs queue fields has m k s r) (hdirty : r.dirty = true) {f : Nat} {n : Norm} (e : r.norms f = some n) (hd : n.dirty = true) :
    ∃ files' queue' r', rewrite files queue r f n = .ok (files', queue', r') ∧ SegOk files' cfs queue' fields has m k s r' ∧ Frame [r.si.name] files queue files' queue' ∧
      r'.si.name = r.si.name ∧ r'.size = r.size ∧ r'.dirty = r.dirty ∧ r'.changes = r.changes ∧
      (∀ f' n', r'.norms f' = some n' → n'.dirty = true → f' ≠ f ∧ ∃ n0, r.norms f' = some n0 ∧ n0.dirty = true) := by
  obtain ⟨g, hg, h0, hk, hk1⟩ := h.gen f n e
  have hk1 := hk1 hd
  have hfl := h.fld e
  obtain ⟨old, hold⟩ := name_exists (c := r.si.compound) h.base h0 (by omega) hfl
  obtain ⟨new, hnew⟩ := name_exists (c := r.si.compound) (g := g + 1) h.base (by omega) (by omega) hfl
  have hb : n.bytes = some (rowAt m s r.size f) := by
    rcases h.bytes f n e with hb | ⟨_, hb, _⟩
    · exact hb
    · rw [hd] at hb; cases hb
  have hg1 : (advanceNormGen r.si f).normGens[f]? = some (g + 1) := by rw [advance_gens hg, if_pos rfl]
  have hn1 : normFileName (advanceNormGen r.si f) f = .ok (some new) := by
    rw [normFileName_some hg1 (by omega)]
    exact hnew
  unfold rewrite
  rw [normFileName_some hg h0, hold, Res.ok_bind, hn1, Res.ok_bind, hb]
  dsimp only
  rw [if_pos (by rw [rowAt_length]; exact Nat.le_refl _)]
  refine ⟨_, _, _, rfl, ?_, ?_, rfl, rfl, rfl, rfl, ?_⟩
  · have hother : ∀ f' g' name, f' ≠ f → f' < 2 ^ 31 → 0 ≤ g' → g' < 2 ^ 31 → fnForGenField r.si.name (normExt r.si.compound g') g' f' = .ok (some name) → name ≠ new := by
      rintro f' g' name hf hfl' a1 a2 hn rfl
      exact hf (name_inj a1 a2 hfl' (by omega) (by omega) hfl hn hnew).2.2
    have back : ∀ (f' : Nat) (n' : Norm), (if f' = f then some (⟨n.file, some (rowAt m s r.size f), false⟩ : Norm) else r.norms f') = some n' →
        ∃ n0, r.norms f' = some n0 ∧ ((f' = f ∧ n'.bytes = n.bytes ∧ n'.dirty = false ∧ n0 = n) ∨ (f' ≠ f ∧ n' = n0)) := by
      intro f' n' h'
      by_cases hf : f' = f
      · rw [if_pos hf] at h'
        cases h'
        exact ⟨n, by rw [hf]; exact e, .inl ⟨hf, hb.symm, rfl, rfl⟩⟩
      · rw [if_neg hf] at h'
        exact ⟨n', h', .inr ⟨hf, rfl⟩⟩
    refine ⟨h.base, ?_, ?_, ?_, ?_, ?_, ?_, ?_, ?_, ?_, h.quiet⟩
    · show (advanceNormGen r.si f).normGens.length ≤ _
      rw [advance_length hg]
      exact h.len
    · intro f' n' h'
      obtain ⟨n0, e0, hb'⟩ := back f' n' h'
      show ∃ g, (advanceNormGen r.si f).normGens[f']? = some g ∧ _
      rw [advance_gens hg]
      rcases hb' with ⟨hf, _, hd', _⟩ | ⟨hf, rfl⟩
      · rw [if_pos hf]
        exact ⟨g + 1, rfl, by omega, by omega, fun h => by rw [hd'] at h; cases h⟩
      · rw [if_neg hf]
        exact h.gen f' n' e0
    · intro f' g' h' hg'
      have h' : (if f' = f then _ else r.norms f') = none := h'
      have hg' : (advanceNormGen r.si f).normGens[f']? = some g' := hg'
      by_cases hf : f' = f
      · rw [if_pos hf] at h'
        cases h'
      · rw [if_neg hf] at h'
        rw [advance_gens hg, if_neg hf] at hg'
        exact h.absent f' g' h' hg'
    · intro f' o ho
      rw [h.has f' o ho]
      show _ = (if f' = f then _ else r.norms f').isSome
      by_cases hf : f' = f
      · rw [if_pos hf, hf, e]; rfl
      · rw [if_neg hf]
    · intro f' n' h'
      obtain ⟨n0, e0, hb'⟩ := back f' n' h'
      rcases hb' with ⟨hf, _, hd', _⟩ | ⟨hf, rfl⟩
      · subst hf
        refine ⟨rowAt m s r.size f', ⟨new, (rowAt m s r.size f').take r.size, hn1, ?_, ?_, ?_⟩, fun _ => rfl⟩
        · unfold place
          rw [if_neg (by rw [hg1]; rintro ⟨_, hx⟩; simp at hx; omega)]
          exact if_pos rfl
        · rw [List.length_take, rowAt_length, Nat.min_self]
          exact Nat.le_refl _
        · show List.take r.size _ = _
          rw [List.take_take, Nat.min_self, List.take_of_length_le (by rw [rowAt_length]; exact Nat.le_refl _)]
      · obtain ⟨row, ⟨name, c, a1, a2, a3⟩, hr⟩ := h.data f' n' e0
        obtain ⟨g', hg', b0, bk, _⟩ := h.gen f' n' e0
        have hg'' : (advanceNormGen r.si f).normGens[f']? = some g' := by rw [advance_gens hg, if_neg hf]; exact hg'
        rw [normFileName_some hg' b0] at a1
        refine ⟨row, ⟨name, c, ?_, ?_, a3⟩, hr⟩
        · rw [normFileName_some hg'' b0]
          exact a1
        · unfold place at a2 ⊢
          rw [hg'] at a2
          rw [hg'']
          by_cases hc : r.si.compound = true ∧ some g' = some 0
          · rw [if_pos hc] at a2
            rw [if_pos (by exact hc)]
            exact a2
          · rw [if_neg hc] at a2
            rw [if_neg (by exact hc), if_neg (hother f' g' name hf (h.fld e0) b0 (by omega) a1)]
            exact a2
    · intro f' n' h'
      show n'.bytes = some (rowAt _ s r.size f') ∨ (_ ∧ _ ∧ r.size ≤ _ ∧ List.take r.size _ = rowAt _ s r.size f')
      obtain ⟨n0, e0, hb'⟩ := back f' n' h'
      rcases hb' with ⟨hf, hbb, _⟩ | ⟨hf, rfl⟩
      · rw [hbb, hb, hf]
        exact .inl rfl
      · exact h.bytes f' n' e0
    · intro q hq c g' f' b0 b1 b2 hn gg hgg
      have hgg : (advanceNormGen r.si f).normGens[f']? = some gg := hgg
      have hn : fnForGenField r.si.name (normExt c g') g' f' = .ok (some q) := hn
      rw [advance_gens hg] at hgg
      rcases List.mem_append.1 hq with hq | hq
      · by_cases hf : f' = f
        · rw [if_pos hf] at hgg
          cases hgg
          have := h.queue q hq c g' f' b0 b1 b2 hn g (by rw [hf]; exact hg)
          omega
        · rw [if_neg hf] at hgg
          exact h.queue q hq c g' f' b0 b1 b2 hn gg hgg
      · rw [List.mem_singleton] at hq
        subst hq
        obtain ⟨_, x1, x2⟩ := name_inj b0 b1 b2 h0 (by omega) hfl hn hold
        rw [if_pos x2] at hgg
        cases hgg
        omega
    · intro f' n' h'
      obtain ⟨n0, e0, _⟩ := back f' n' h'
      exact h.idx f' n0 e0
    · intro hcl
      have hcl : r.dirty = false := hcl
      rw [hdirty] at hcl
      cases hcl
  · refine ⟨?_, ?_⟩
    · intro x hx
      refine if_neg ?_
      rintro rfl
      exact hx r.si.name (by simp) ⟨_, g + 1, f, by omega, by omega, hfl, hnew⟩
    · intro q hq
      rcases List.mem_append.1 hq with hq | hq
      · exact .inl hq
      · rw [List.mem_singleton] at hq
        subst hq
        exact .inr ⟨_, by simp, _, g, f, h0, by omega, hfl, hold⟩
  · intro f' n' h' hd'
    have h' : (if f' = f then some (⟨n.file, some (rowAt m s r.size f), false⟩ : Norm) else r.norms f') = some n' := h'
    by_cases hf : f' = f
    · rw [if_pos hf] at h'
      cases h'
      cases hd'
    · rw [if_neg hf] at h'
      exact ⟨hf, n', h', hd'⟩

theorem commitLoop_ok : ∀ (i : Nat) (files : Store) (queue : List Name) (r : Sr), SegOk files cfs queue fields has m k s r → r.dirty = true →
    (∀ f n, r.norms f = some n → n.dirty = true → f < i) →
    ∃ files' queue' r', commitLoop fields i files queue r = .ok (files', queue', r') ∧ SegOk files' cfs queue' fields has m k s r' ∧ Frame [r.si.name] files queue files' queue' ∧
      r'.si.name = r.si.name ∧ r'.size = r.size ∧ (∀ f n, r'.norms f = some n → n.dirty = false) := by
  intro i
  induction i with
  | zero =>
    intro files queue r h hd hlt
    refine ⟨files, queue, r, rfl, h, Frame.refl _ _ _, rfl, rfl, ?_⟩
    intro f n e
    cases hdn : n.dirty with
    | false => rfl
    | true => have := hlt f n e hdn; omega
  | succ i ih =>
    intro files queue r h hd hlt
    unfold commitLoop
    have skip : (∀ n, r.norms i = some n → n.dirty = false) → ∀ f n, r.norms f = some n → n.dirty = true → f < i := by
      intro hn f n e hdn
      have := hlt f n e hdn
      by_cases hf : f = i
      · subst hf
        rw [hn n e] at hdn
        cases hdn
      · omega
    split
    · cases e : r.norms i with
      | none => exact ih files queue r h hd (skip (by intro n e'; rw [e] at e'; cases e'))
      | some n =>
        dsimp only
        split
        · rename_i hdn
          obtain ⟨f1, q1, r1, h1, h2, h3, h4, h5, h6, h7, h8⟩ := rewrite_ok h hd e hdn
          rw [h1, Res.ok_bind]
          obtain ⟨f2, q2, r2, g1, g2, g3, g4, g5, g6⟩ := ih f1 q1 r1 h2 (by rw [h6]; exact hd) (by
            intro f n' e' hd'
            obtain ⟨a1, n0, a2, a3⟩ := h8 f n' e' hd'
            have := hlt f n0 a2 a3
            omega)
          rw [h4] at g3
          exact ⟨f2, q2, r2, g1, g2, h3.trans g3, by rw [g4, h4], by rw [g5, h5], g6⟩
        · rename_i hdn
          exact ih files queue r h hd (skip (by intro n' e'; rw [e] at e'; cases e'; simpa using hdn))
    · rename_i hx
      refine ih files queue r h hd (skip ?_)
      intro n e
      exact absurd (h.idx i n e) hx

theorem srCommit_ok (h : SegOk files cfs queue fields has m k s r) :
    ∃ files' queue' r', srCommit fields files queue r = .ok (files', queue', r') ∧ SegOk files' cfs queue' fields has m k s r' ∧ Frame [r.si.name] files queue files' queue' ∧
      r'.si.name = r.si.name ∧ r'.size = r.size ∧ (∀ f n, r'.norms f = some n → n.dirty = false) := by
  unfold srCommit
  split
  · split
    · rename_i hd
      obtain ⟨f1, q1, r1, h1, h2, h3, h4, h5, h6⟩ := commitLoop_ok fields.length files queue r h hd (by
        intro f n e _
        exact (List.getElem?_eq_some_iff.1 (h.idx f n e)).1)
      rw [h1, Res.ok_bind]
      exact ⟨f1, q1, _, rfl, ⟨h2.base, h2.len, h2.gen, h2.absent, h2.has, h2.data, h2.bytes, h2.queue, h2.idx, fun _ => h6, fun _ => rfl⟩, h3, h4, h5, h6⟩
    · rename_i hd
      exact ⟨files, queue, _, rfl, ⟨h.base, h.len, h.gen, h.absent, h.has, h.data, h.bytes, h.queue, h.idx, h.clean, fun _ => by simpa using hd⟩, Frame.refl _ _ _, rfl, rfl,
        h.clean (by simpa using hd)⟩
  · rename_i hc
    exact ⟨files, queue, r, rfl, h, Frame.refl _ _ _, rfl, rfl, h.clean (h.quiet (by simpa using hc))⟩

end

end Ferret.Norms
