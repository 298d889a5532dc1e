import Verif.Lemmas.Norms

/-! Lemmas for C93: opening, several segments, and programs. -/

namespace Ferret.Norms
open Ferret Ferret.Spec Ferret.Sis Ferret.Rdr Ferret.Dlr Ferret.Names

local notation "Store" => Name → Option (List Byte)

/-- A property of every element and of where it starts. -/
def All {α : Type} (size : α → Nat) (P : Nat → α → Prop) (s : Nat) (l : List α) : Prop := ∀ (i : Nat) (x : α), l[i]? = some x → P (s + ((l.take i).map size).sum) x

theorem all_nil {α : Type} {size : α → Nat} {P : Nat → α → Prop} {s : Nat} : All size P s [] := by
  intro i x h
  simp at h

theorem all_cons {α : Type} {size : α → Nat} {P : Nat → α → Prop} {s : Nat} {x : α} {l : List α} : All size P s (x :: l) ↔ P s x ∧ All size P (s + size x) l := by
  constructor
  · intro h
    refine ⟨by simpa using h 0 x rfl, ?_⟩
    intro i y e
    have := h (i + 1) y (by simpa using e)
    simp only [List.take_succ_cons, List.map_cons, List.sum_cons] at this
    rwa [Nat.add_assoc]
  · rintro ⟨h1, h2⟩ i y e
    cases i with
    | zero =>
      simp at e
      subst e
      simpa using h1
    | succ i =>
      have := h2 i y (by simpa using e)
      simp only [List.take_succ_cons, List.map_cons, List.sum_cons]
      rwa [Nat.add_assoc] at this

theorem all_mono {α : Type} {size : α → Nat} {P Q : Nat → α → Prop} {s : Nat} {l : List α} (h : All size P s l) (hm : ∀ s x, P s x → Q s x) : All size Q s l :=
  fun i x e => hm _ _ (h i x e)

section
variable {fields : List Bool} {has : Nat → Nat → Bool} {m : Nat → Nat → Byte} {k s : Nat}

/-! ### Opening -/

theorem openNorms_ok (d : Disk) {si : SI} (h : SiOk d.files d.cfs has m k s si) : ∀ (i : Nat) (norms : Nat → Option Norm), i ≤ si.normGens.length →
    (∀ f, f < i → norms f = none) →
    ∃ norms', openNorms d si i norms = .ok norms' ∧ (∀ f, i ≤ f → norms' f = norms f) ∧
      ∀ (f : Nat), f < i → match si.normGens[f]? with
        | some g => if 0 ≤ g then ∃ c, norms' f = some ⟨c, none, false⟩ ∧ siSize si ≤ c.length ∧ c.take (siSize si) = rowAt m s (siSize si) f else norms' f = none
        | none => False := by
  intro i
  induction i with
  | zero => intro norms _ _; exact ⟨norms, rfl, fun _ _ => rfl, fun f h => by omega⟩
  | succ i ih =>
    intro norms hi hn
    have hg := List.getElem?_eq_getElem (show i < si.normGens.length by omega)
    generalize si.normGens[i] = g at hg
    unfold openNorms
    by_cases h0 : 0 ≤ g
    · obtain ⟨name, c, h1, h2, h3, h4⟩ := h.data i g hg h0
      rw [h1, Res.ok_bind]
      dsimp only
      have ho : openInput (if si.compound = true ∧ si.normGens[i]? = some 0 then d.cfs si.name else d.files) name = .ok c := by
        unfold openInput
        have : (if si.compound = true ∧ si.normGens[i]? = some 0 then d.cfs si.name else d.files) name = some c := h2
        rw [this]
      rw [ho, Res.ok_bind]
      obtain ⟨n', a1, a2, a3⟩ := ih (fun f => if f = i then some ⟨c, none, false⟩ else norms f) (by omega) (by
        intro f hf
        rw [if_neg (by omega)]
        exact hn f (by omega))
      refine ⟨n', a1, ?_, ?_⟩
      · intro f hf
        rw [a2 f (by omega), if_neg (by omega)]
      · intro f hf
        by_cases hfi : f = i
        · subst hfi
          rw [hg]
          dsimp only
          rw [if_pos h0]
          exact ⟨c, by rw [a2 f (Nat.le_refl _), if_pos rfl], h3, h4⟩
        · exact a3 f (by omega)
    · rw [normFileName_neg hg (by omega), Res.ok_bind]
      dsimp only
      obtain ⟨n', a1, a2, a3⟩ := ih norms (by omega) (fun f hf => hn f (by omega))
      refine ⟨n', a1, fun f hf => a2 f (by omega), ?_⟩
      intro f hf
      by_cases hfi : f = i
      · subst hfi
        rw [hg]
        dsimp only
        rw [if_neg h0, a2 f (Nat.le_refl _)]
        exact hn f (by omega)
      · exact a3 f (by omega)

theorem srOpen_ok (d : Disk) {si : SI} (h : SiOk d.files d.cfs has m k s si) (hidx : ∀ (f : Nat) (g : Int), si.normGens[f]? = some g → 0 ≤ g → fields[f]? = some true) :
    ∃ r, srOpen d si = .ok r ∧ SegOk d.files d.cfs [] fields has m k s r ∧ r.si = si ∧ r.changes = false ∧ (∀ f n, r.norms f = some n → n.dirty = false) := by
  obtain ⟨norms, h1, h2, h3⟩ := openNorms_ok d h si.normGens.length (fun _ => none) (Nat.le_refl _) (fun _ _ => rfl)
  unfold srOpen
  rw [h1, Res.ok_bind]
  have back : ∀ (f : Nat) (n : Norm), norms f = some n → ∃ g c, si.normGens[f]? = some g ∧ 0 ≤ g ∧ n = ⟨c, none, false⟩ ∧ siSize si ≤ c.length ∧
      c.take (siSize si) = rowAt m s (siSize si) f := by
    intro f n e
    by_cases hf : f < si.normGens.length
    · have := h3 f hf
      rw [List.getElem?_eq_getElem hf] at this ⊢
      generalize si.normGens[f] = g at this
      dsimp only at this
      by_cases h0 : 0 ≤ g
      · rw [if_pos h0] at this
        obtain ⟨c, a1, a2, a3⟩ := this
        rw [e] at a1
        cases a1
        exact ⟨g, c, rfl, h0, rfl, a2, a3⟩
      · rw [if_neg h0, e] at this
        cases this
    · rw [h2 f (by omega)] at e
      cases e
  refine ⟨_, rfl, ⟨h.base, h.len, ?_, ?_, ?_, ?_, ?_, ?_, ?_, ?_, fun _ => rfl⟩, rfl, rfl, ?_⟩
  · intro f n e
    obtain ⟨g, c, a1, a2, a3, _⟩ := back f n e
    exact ⟨g, a1, a2, h.gen f g a1 a2, fun h => by rw [a3] at h; cases h⟩
  · intro f g e hg
    have e : norms f = none := e
    have hg : si.normGens[f]? = some g := hg
    have hf := (List.getElem?_eq_some_iff.1 hg).1
    have := h3 f hf
    rw [hg] at this
    dsimp only at this
    by_cases h0 : 0 ≤ g
    · rw [if_pos h0] at this
      obtain ⟨c, a1, _⟩ := this
      rw [e] at a1
      cases a1
    · omega
  · intro f o ho
    rw [h.has f o ho]
    show _ = (norms f).isSome
    by_cases hf : f < si.normGens.length
    · have := h3 f hf
      rw [List.getElem?_eq_getElem hf] at this ⊢
      generalize si.normGens[f] = g at this
      dsimp only at this ⊢
      by_cases h0 : 0 ≤ g
      · rw [if_pos h0] at this
        obtain ⟨c, a1, _⟩ := this
        rw [a1]
        simp [h0]
      · rw [if_neg h0] at this
        rw [this]
        simp [h0]
    · rw [List.getElem?_eq_none (by omega), h2 f (by omega)]
      rfl
  · intro f n e
    obtain ⟨g, c, a1, a2, _⟩ := back f n e
    exact ⟨_, h.data f g a1 a2, fun _ => rfl⟩
  · intro f n e
    obtain ⟨g, c, a1, a2, a3, a4, a5⟩ := back f n e
    right
    rw [a3]
    exact ⟨rfl, rfl, a4, a5⟩
  · intro q hq
    cases hq
  · intro f n e
    obtain ⟨g, c, a1, a2, _⟩ := back f n e
    exact hidx f g a1 a2
  · intro _ f n e
    obtain ⟨g, c, _, _, a3, _⟩ := back f n e
    rw [a3]
  · intro f n e
    obtain ⟨g, c, _, _, a3, _⟩ := back f n e
    rw [a3]

/-- Fields with norms are indexed. -/
def Indexed (fields : List Bool) (segs : List SI) : Prop := ∀ si ∈ segs, ∀ (f : Nat) (g : Int), si.normGens[f]? = some g → 0 ≤ g → fields[f]? = some true

theorem openAll_ok (d : Disk) : ∀ (segs : List SI) (s : Nat), All siSize (SiOk d.files d.cfs has m k) s segs → Indexed fields segs →
    ∃ rs, openAll d segs = .ok rs ∧ All Sr.size (SegOk d.files d.cfs [] fields has m k) s rs ∧ rs.map Sr.si = segs ∧
      (∀ r ∈ rs, r.changes = false ∧ ∀ f n, r.norms f = some n → n.dirty = false) := by
  intro segs
  induction segs with
  | nil => intro s _ _; exact ⟨[], rfl, all_nil, rfl, fun r h => by cases h⟩
  | cons si segs ih =>
    intro s h hi
    rw [all_cons] at h
    obtain ⟨r, h1, h2, h3, h4, h5⟩ := srOpen_ok d h.1 (hi si (by simp))
    obtain ⟨rs, g1, g2, g3, g4⟩ := ih (s + siSize si) h.2 (fun x hx => hi x (by simp [hx]))
    refine ⟨r :: rs, by unfold openAll; rw [h1, Res.ok_bind, g1, Res.ok_bind], ?_, by rw [List.map_cons, h3, g3], ?_⟩
    · rw [all_cons]
      refine ⟨h2, ?_⟩
      have : r.size = siSize si := by unfold Sr.size siSize; rw [h3]
      rw [this]
      exact g2
    · intro x hx
      rcases List.mem_cons.1 hx with rfl | hx
      · exact ⟨h4, h5⟩
      · exact g4 x hx

/-! ### Several segments -/

def seen (has : Nat → Nat → Bool) (m : Nat → Nat → Byte) (f d : Nat) : Byte := if has d f then m d f else 0

theorem map_range_add (g : Nat → Byte) (a b : Nat) : (List.range (a + b)).map g = (List.range a).map g ++ (List.range b).map fun o => g (a + o) := by
  rw [List.range_add, List.map_append, List.map_map]
  rfl

theorem mrFill_ok {files : Store} {cfs : Name → Store} {queue : List Name} (mr : Mr) (hmap : mr.map = none) (f : Nat) : ∀ (rs : List Sr) (i off : Nat) (buf : List Byte),
    All Sr.size (SegOk files cfs queue fields has m k) off rs → buf.length = off + (rs.map Sr.size).sum →
    mrFill mr f rs i off buf = .ok (buf.take off ++ (List.range (rs.map Sr.size).sum).map fun o => seen has m f (off + o)) := by
  intro rs
  induction rs with
  | nil =>
    intro i off buf _ hl
    unfold mrFill
    simp only [List.map_nil, List.sum_nil, List.range_zero, List.append_nil]
    rw [List.take_of_length_le (by simp at hl; omega)]
  | cons r rs ih =>
    intro i off buf h hl
    rw [all_cons] at h
    unfold mrFill Mr.fieldNum
    rw [hmap]
    dsimp only
    rw [Res.ok_bind, if_neg (by omega), Int.toNat_natCast, srInto_ok h.1, Res.ok_bind]
    rw [List.map_cons, List.sum_cons] at hl
    unfold writeAt
    simp only [List.length_map, List.length_range]
    rw [if_pos (by omega), Res.ok_bind, ih _ _ _ h.2 (by simp; omega)]
    congr 1
    rw [List.map_cons, List.sum_cons, map_range_add, ← List.append_assoc]
    congr 1
    · rw [List.take_append_of_le_length (by simp; omega), List.take_of_length_le (by simp; omega)]
      rfl
    · refine List.map_congr_left ?_
      intro o _
      rw [Nat.add_assoc]

theorem set_map_si {rs : List Sr} {i : Nat} {r r' : Sr} (e : rs[i]? = some r) (h : r'.si = r.si) : (rs.set i r').map Sr.si = rs.map Sr.si := by
  refine List.ext_getElem? ?_
  intro j
  rw [List.getElem?_map, List.getElem?_map, List.getElem?_set]
  by_cases hj : i = j
  · subst hj
    rw [if_pos rfl, if_pos (List.getElem?_eq_some_iff.1 e).1, e]
    simp [h]
  · rw [if_neg hj]

theorem sizes_of_si {rs rs' : List Sr} (h : rs'.map Sr.si = rs.map Sr.si) : rs'.map Sr.size = rs.map Sr.size := by
  have h1 : ∀ l : List Sr, l.map Sr.size = (l.map Sr.si).map siSize := by intro l; rw [List.map_map]; rfl
  rw [h1, h1, h]

theorem take_sum_le : ∀ (l : List Nat) (i j : Nat), i ≤ j → (l.take i).sum ≤ (l.take j).sum := by
  intro l
  induction l with
  | nil => intro i j _; simp
  | cons a l ih =>
    intro i j h
    cases i with
    | zero => simp
    | succ i =>
      cases j with
      | zero => omega
      | succ j =>
        simp only [List.take_succ_cons, List.sum_cons]
        have := ih i j (by omega)
        omega

theorem take_sum_succ {l : List Nat} {i x : Nat} (h : l[i]? = some x) : (l.take (i + 1)).sum = (l.take i).sum + x := by
  rw [List.take_add_one, h]
  simp

theorem all_set {files : Store} {cfs : Name → Store} {queue : List Name} {rs : List Sr} (h : All Sr.size (SegOk files cfs queue fields has m (k + 1)) 0 rs)
    {i o : Nat} {r r' : Sr} {f : Nat} {v : Byte} (e : rs[i]? = some r) (ho : o < r.size)
    (h' : SegOk files cfs queue fields has (fun d' f' => if d' = ((rs.take i).map Sr.size).sum + o ∧ f' = f then v else m d' f') k ((rs.take i).map Sr.size).sum r') (hsi : r'.si = r.si) :
    All Sr.size (SegOk files cfs queue fields has (fun d' f' => if d' = ((rs.take i).map Sr.size).sum + o ∧ f' = f then v else m d' f') k) 0 (rs.set i r') := by
  intro j x ex
  have hst : ((rs.set i r').take j).map Sr.size = (rs.take j).map Sr.size := by
    rw [List.map_take, List.map_take, sizes_of_si (set_map_si e hsi)]
  rw [hst, Nat.zero_add]
  rw [List.getElem?_set] at ex
  by_cases hj : i = j
  · subst hj
    rw [if_pos rfl, if_pos (List.getElem?_eq_some_iff.1 e).1] at ex
    cases ex
    exact h'
  · rw [if_neg hj] at ex
    have hx := h j x ex
    rw [Nat.zero_add] at hx
    refine hx.less.rows ?_
    intro f'
    refine rowAt_out ?_ f'
    simp only [List.map_take]
    have e1 : (rs.map Sr.size)[i]? = some r.size := by rw [List.getElem?_map, e]; rfl
    have e2 : (rs.map Sr.size)[j]? = some x.size := by rw [List.getElem?_map, ex]; rfl
    have a1 := take_sum_succ e1
    have a2 := take_sum_succ e2
    rcases Nat.lt_or_gt_of_ne hj with hlt | hlt
    · left
      have := take_sum_le (rs.map Sr.size) (i + 1) j (by omega)
      omega
    · right
      have := take_sum_le (rs.map Sr.size) (j + 1) i (by omega)
      omega

theorem commitSubs_ok {cfs : Name → Store} : ∀ (rs : List Sr) (s : Nat) (files : Store) (queue : List Name), All Sr.size (SegOk files cfs queue fields has m k) s rs →
    (rs.map fun r => r.si.name).Nodup →
    ∃ files' queue' rs', commitSubs fields rs files queue = .ok (files', queue', rs') ∧ All Sr.size (SegOk files' cfs queue' fields has m k) s rs' ∧
      Frame (rs.map fun r => r.si.name) files queue files' queue' ∧ (rs'.map fun r => r.si.name) = (rs.map fun r => r.si.name) ∧ rs'.map Sr.size = rs.map Sr.size ∧
      (∀ r ∈ rs', ∀ f n, r.norms f = some n → n.dirty = false) := by
  intro rs
  induction rs with
  | nil => intro s files queue _ _; exact ⟨files, queue, [], rfl, all_nil, Frame.refl _ _ _, rfl, rfl, fun r h => by cases h⟩
  | cons r rs ih =>
    intro s files queue h hnd
    rw [all_cons] at h
    rw [List.map_cons, List.nodup_cons] at hnd
    obtain ⟨f1, q1, r1, a1, a2, a3, a4, a5, a6⟩ := srCommit_ok h.1
    have hrest : All Sr.size (SegOk f1 cfs q1 fields has m k) (s + r.size) rs := by
      intro i x e
      refine (h.2 i x e).frame a3 ?_
      intro hm
      rw [List.mem_singleton] at hm
      exact hnd.1 (List.mem_map.2 ⟨x, List.mem_of_getElem? e, hm⟩)
    obtain ⟨f2, q2, rs2, b1, b2, b3, b4, b5, b6⟩ := ih (s + r.size) f1 q1 hrest hnd.2
    unfold commitSubs
    rw [a1, Res.ok_bind, b1, Res.ok_bind]
    refine ⟨f2, q2, r1 :: rs2, rfl, ?_, ?_, ?_, ?_, ?_⟩
    · rw [all_cons]
      refine ⟨a2.frame b3 ?_, by rw [a5]; exact b2⟩
      rw [a4]
      exact hnd.1
    · exact (a3.mono (by simp)).trans (b3.mono (fun b hb => by rw [List.map_cons]; exact List.mem_cons_of_mem _ hb))
    · rw [List.map_cons, List.map_cons, a4, b4]
    · rw [List.map_cons, List.map_cons, a5, b5]
    · intro x hx
      rcases List.mem_cons.1 hx with rfl | hx
      · exact a6
      · exact b6 x hx

/-- The queued files can be deleted. -/
theorem SegOk.deleted {files : Store} {cfs : Name → Store} {queue : List Name} {r : Sr} (h : SegOk files cfs queue fields has m k s r) :
    SegOk (fun n => if n ∈ queue then none else files n) cfs [] fields has m k s r := by
  refine ⟨h.base, h.len, h.gen, h.absent, h.has, ?_, h.bytes, (fun q hq => by cases hq), h.idx, h.clean, h.quiet⟩
  intro f n e
  obtain ⟨row, h1, h2⟩ := h.data f n e
  obtain ⟨g, hg, h0, hk, _⟩ := h.gen f n e
  refine ⟨row, h1.of_files hg (fun name hn => ?_) h0, h2⟩
  refine if_neg ?_
  intro hq
  have := h.queue name hq _ g f h0 (by omega) (h.fld e) hn g hg
  omega

/-! ### Programs -/

/-- The segment readers of a reader. -/
def Reader.segs : Reader → List Sr
  | .one r => [r]
  | .many m => m.subs

/-- The state of a program and what it should see. -/
structure Rel (fields : List Bool) (st : NState) (k : Nat) (d : Disk) (x : Reader) : Prop where
  segs : d.segs = x.segs.map Sr.si
  names : (d.segs.map SI.name).Nodup
  max : st.max = (x.segs.map Sr.size).sum
  disk : All siSize (SiOk d.files d.cfs st.has st.saved k) 0 d.segs
  idx : Indexed fields d.segs
  subs : All Sr.size (SegOk d.files d.cfs [] fields st.has st.cur k) 0 x.segs
  cache : ∀ mr, x = .many mr → mr.map = none ∧ (∀ f y, mr.cache f = some y → y.2 = st.row st.cur f) ∧ (mr.changes = false → ∀ r ∈ mr.subs, r.changes = false)

theorem seen_row (st : NState) (m : Nat → Nat → Byte) (f : Nat) : st.row m f = (List.range st.max).map (seen st.has m f) := rfl

theorem one_row {files : Store} {cfs : Name → Store} {queue : List Name} {st : NState} {m : Nat → Nat → Byte} {r : Sr} (h : SegOk files cfs queue fields st.has m k 0 r) (hm : st.max = r.size) (f : Nat) :
    srInto r f = .ok (st.row m f) := by
  rw [srInto_ok h f]
  unfold NState.row
  rw [hm]
  simp only [Nat.zero_add]

theorem irNorms_ok {st : NState} {d : Disk} {x : Reader} {k : Nat} (h : Rel fields st k d x) (f : Nat) : ∃ x', irNorms x f = .ok (st.row st.cur f, x') ∧ Rel fields st k d x' := by
  cases x with
  | one r =>
    have hr := (all_cons.1 h.subs).1
    obtain ⟨r', h1, h2, h3, h4⟩ := srNorms_ok hr f
    have hm : st.max = r.size := by rw [h.max]; simp [Reader.segs]
    have hrow := one_row hr hm f
    unfold irNorms
    dsimp only
    rw [h1, Res.ok_bind]
    refine ⟨.one r', ?_, ?_⟩
    · congr 2
      unfold srInto at hrow
      cases e : r.norms f with
      | none =>
        rw [e] at hrow
        simpa using hrow
      | some n =>
        rw [e] at hrow
        rw [Option.isSome_some, if_pos rfl]
        dsimp only at hrow ⊢
        rcases hr.bytes f n e with hb | ⟨hb, _, hl, ht⟩
        · rw [hb] at hrow
          simpa using hrow
        · rw [hb] at hrow
          simp only [readBytes, hl, if_true, ht] at hrow
          simpa using hrow
    · have hs : (Reader.one r').segs.map Sr.si = (Reader.one r).segs.map Sr.si := by simp [Reader.segs, h3]
      refine ⟨by rw [hs]; exact h.segs, h.names, by rw [h.max, sizes_of_si hs], h.disk, h.idx, ?_, fun mr e => by cases e⟩
      show All _ _ 0 [r']
      rw [all_cons]
      exact ⟨h2, all_nil⟩
  | many mr =>
    obtain ⟨c1, c2, c3⟩ := h.cache mr rfl
    unfold irNorms mrNorms
    dsimp only
    cases e : mr.cache f with
    | some y =>
      dsimp only
      rw [Res.ok_bind]
      exact ⟨.many mr, by rw [c2 f y e], h⟩
    | none =>
      dsimp only
      have hm : st.max = mr.max := h.max
      rw [mrFill_ok mr c1 f mr.subs 0 0 _ h.subs (by simp [Mr.max])]
      have hrow : (List.range (mr.subs.map Sr.size).sum).map (fun o => seen st.has st.cur f (0 + o)) = st.row st.cur f := by
        rw [seen_row, hm]
        simp only [Nat.zero_add]
        rfl
      rw [hrow]
      simp only [List.take_zero, List.nil_append, Res.ok_bind]
      refine ⟨_, rfl, ⟨h.segs, h.names, h.max, h.disk, h.idx, h.subs, ?_⟩⟩
      intro mr' e'
      cases e'
      refine ⟨c1, ?_, c3⟩
      intro f' y hy
      have hy : (if f' = f then some (mr.made f, st.row st.cur f) else mr.cache f') = some y := hy
      by_cases hf : f' = f
      · rw [if_pos hf] at hy
        cases hy
        rw [hf]
      · rw [if_neg hf] at hy
        exact c2 f' y hy

theorem row_length (st : NState) (m : Nat → Nat → Byte) (f : Nat) : (st.row m f).length = st.max := by simp [NState.row]

theorem writeAll {buf b : List Byte} (h : buf.length = b.length) : writeAt buf 0 b = .ok b := by
  unfold writeAt
  rw [if_pos (by omega)]
  simp [h]

theorem irInto_ok {st : NState} {d : Disk} {x : Reader} {k : Nat} (h : Rel fields st k d x) (f : Nat) (buf : List Byte) (hb : buf.length = st.max) :
    irInto x f buf = .ok (st.row st.cur f) := by
  cases x with
  | one r =>
    have hr := (all_cons.1 h.subs).1
    have hm : st.max = r.size := by rw [h.max]; simp [Reader.segs]
    unfold irInto
    dsimp only
    rw [one_row hr hm f, Res.ok_bind]
    exact writeAll (by rw [row_length, hb])
  | many mr =>
    obtain ⟨c1, c2, c3⟩ := h.cache mr rfl
    unfold irInto mrInto
    dsimp only
    cases e : mr.cache f with
    | some y =>
      dsimp only
      rw [c2 f y e]
      exact writeAll (by rw [row_length, hb])
    | none =>
      dsimp only
      have hm : st.max = mr.max := h.max
      rw [mrFill_ok mr c1 f mr.subs 0 0 _ h.subs (by rw [hb, hm]; simp [Mr.max])]
      rw [seen_row, hm]
      simp only [Nat.zero_add, List.take_zero, List.nil_append]
      rfl

theorem SiOk.less {files : Store} {cfs : Name → Store} {si : SI} (h : SiOk files cfs has m (k + 1) s si) : SiOk files cfs has m k s si :=
  ⟨h.base, h.len, fun f g e h0 => by have := h.gen f g e h0; omega, h.has, h.data⟩

theorem Rel.less {st : NState} {d : Disk} {x : Reader} {k : Nat} (h : Rel fields st (k + 1) d x) : Rel fields st k d x :=
  ⟨h.segs, h.names, h.max, all_mono h.disk (fun _ _ => SiOk.less), h.idx, all_mono h.subs (fun _ _ => SegOk.less), h.cache⟩

theorem irSet_ok {st : NState} {d : Disk} {x : Reader} {k : Nat} (h : Rel fields st (k + 1) d x) {doc f : Nat} {v : Byte} (hd : doc < st.max) :
    ∃ x', irSet x doc f v = .ok x' ∧ Rel fields (nstep st (.set doc f v)).2 k d x' := by
  cases x with
  | one r =>
    have hr := (all_cons.1 h.subs).1
    have hm : st.max = r.size := by rw [h.max]; simp [Reader.segs]
    obtain ⟨r', h1, h2, h3⟩ := srSet_ok hr (o := doc) (f := f) (v := v) (by omega)
    unfold irSet
    dsimp only
    rw [h1, Res.ok_bind]
    refine ⟨_, rfl, ?_⟩
    have hs : (Reader.one r').segs.map Sr.si = (Reader.one r).segs.map Sr.si := by simp [Reader.segs, h3]
    refine ⟨by rw [hs]; exact h.segs, h.names, by rw [sizes_of_si hs]; exact h.max, all_mono h.disk (fun _ _ => SiOk.less), h.idx, ?_, fun mr e => by cases e⟩
    show All _ _ 0 [r']
    rw [all_cons]
    refine ⟨?_, all_nil⟩
    rw [Nat.zero_add] at h2
    exact h2
  | many mr =>
    obtain ⟨c1, c2, c3⟩ := h.cache mr rfl
    have hm : st.max = (mr.subs.map Sr.size).sum := h.max
    obtain ⟨i, o, g1, g2⟩ := locate_spec (mr.subs.map Sr.size) doc (by omega)
    obtain ⟨sz, e1, ho, hdoc⟩ := (whichSegment_iff _ _ _ _).1 g1
    rw [List.getElem?_map, Option.map_eq_some_iff] at e1
    obtain ⟨r, er, rfl⟩ := e1
    have hr := h.subs i r er
    rw [Nat.zero_add] at hr
    obtain ⟨r', h1, h2, h3⟩ := srSet_ok hr (o := o) (f := f) (v := v) ho
    unfold irSet mrSet Mr.starts
    dsimp only
    rw [List.length_map] at g2
    rw [g2, Res.ok_bind]
    unfold Mr.fieldNum
    rw [c1]
    dsimp only
    rw [Res.ok_bind, if_neg (by omega), er]
    dsimp only
    rw [Int.toNat_natCast, h1, Res.ok_bind, Res.ok_bind]
    refine ⟨_, rfl, ?_⟩
    have hset := all_set h.subs er ho (by exact h2) h3
    have hdoc' : ((mr.subs.take i).map Sr.size).sum + o = doc := by rw [List.map_take]; exact hdoc.symm
    have hs : (mr.subs.set i r').map Sr.si = mr.subs.map Sr.si := set_map_si er h3
    refine ⟨?_, h.names, ?_, all_mono h.disk (fun _ _ => SiOk.less), h.idx, ?_, ?_⟩
    · show d.segs = (mr.subs.set i r').map Sr.si
      rw [hs]
      exact h.segs
    · show st.max = ((mr.subs.set i r').map Sr.size).sum
      rw [sizes_of_si hs]
      exact hm
    · have hs' : All Sr.size (SegOk d.files d.cfs [] fields st.has (fun d' f' => if d' = doc ∧ f' = f then v else st.cur d' f') k) 0 (mr.subs.set i r') := by
        have hset : All Sr.size (SegOk d.files d.cfs [] fields st.has (fun d' f' => if d' = ((mr.subs.take i).map Sr.size).sum + o ∧ f' = f then v else st.cur d' f') k) 0 (mr.subs.set i r') := hset
        rw [hdoc'] at hset
        exact hset
      exact hs'
    · intro mr' e
      cases e
      refine ⟨rfl, ?_, fun h => by cases h⟩
      intro f' y hy
      have hy : (if f' = f then none else mr.cache f') = some y := hy
      by_cases hf : f' = f
      · rw [if_pos hf] at hy
        cases hy
      · rw [if_neg hf] at hy
        rw [c2 f' y hy]
        unfold NState.row
        refine List.map_congr_left ?_
        intro d' _
        show (if st.has d' f' then st.cur d' f' else 0) = if st.has d' f' then (if d' = doc ∧ f' = f then v else st.cur d' f') else 0
        rw [if_neg (c := d' = doc ∧ f' = f) (by rintro ⟨_, h⟩; exact hf h)]

theorem all_disk {files : Store} {cfs : Name → Store} {queue : List Name} : ∀ {rs : List Sr} {s : Nat}, All Sr.size (SegOk files cfs queue fields has m k) s rs →
    (∀ r ∈ rs, ∀ f n, r.norms f = some n → n.dirty = false) → All siSize (SiOk files cfs has m k) s (rs.map Sr.si) := by
  intro rs
  induction rs with
  | nil => intro s _ _; exact all_nil
  | cons r rs ih =>
    intro s h hc
    rw [all_cons] at h
    rw [List.map_cons, all_cons]
    exact ⟨h.1.disk (hc r (by simp)), ih h.2 (fun x hx => hc x (by simp [hx]))⟩

theorem indexed_of {files : Store} {cfs : Name → Store} {queue : List Name} {rs : List Sr} {s : Nat} (h : All Sr.size (SegOk files cfs queue fields has m k) s rs) : Indexed fields (rs.map Sr.si) := by
  intro si hsi f g hg h0
  obtain ⟨r, hr, rfl⟩ := List.mem_map.1 hsi
  obtain ⟨i, e⟩ := List.mem_iff_getElem?.1 hr
  have hx := h i r e
  cases en : r.norms f with
  | none => have := hx.absent f g en hg; omega
  | some n => exact hx.idx f n en

theorem quiet_clean {files : Store} {cfs : Name → Store} {queue : List Name} {rs : List Sr} {s : Nat} (h : All Sr.size (SegOk files cfs queue fields has m k) s rs)
    (hq : ∀ r ∈ rs, r.changes = false) : ∀ r ∈ rs, ∀ f n, r.norms f = some n → n.dirty = false := by
  intro r hr
  obtain ⟨i, e⟩ := List.mem_iff_getElem?.1 hr
  have hx := h i r e
  exact hx.clean (hx.quiet (hq r hr))

theorem srCommit_quiet {files : Store} {queue : List Name} {r : Sr} {x : Store × List Name × Sr} (h : srCommit fields files queue r = .ok x) : x.2.2.changes = false := by
  unfold srCommit at h
  split at h
  · split at h
    · rw [Res.bind_eq_ok] at h
      obtain ⟨y, _, h⟩ := h
      cases h
      rfl
    · cases h
      rfl
  · rename_i hc
    cases h
    simpa using hc

theorem commitSubs_quiet : ∀ {rs : List Sr} {files : Store} {queue : List Name} {x : Store × List Name × List Sr}, commitSubs fields rs files queue = .ok x → ∀ r ∈ x.2.2, r.changes = false := by
  intro rs
  induction rs with
  | nil => intro files queue x h r hr; cases h; cases hr
  | cons a rs ih =>
    intro files queue x h r hr
    unfold commitSubs at h
    rw [Res.bind_eq_ok] at h
    obtain ⟨y, h1, h⟩ := h
    rw [Res.bind_eq_ok] at h
    obtain ⟨z, h2, h⟩ := h
    cases h
    rcases List.mem_cons.1 hr with rfl | hr
    · exact srCommit_quiet h1
    · exact ih h2 r hr

theorem irCommit_ok {st : NState} {d : Disk} {x : Reader} {k : Nat} (h : Rel fields st k d x) :
    ∃ d' x', irCommit fields d x = .ok (d', x') ∧ Rel fields (nstep st .commit).2 k d' x' := by
  have hnames : (x.segs.map fun r => r.si.name) = d.segs.map SI.name := by rw [h.segs, List.map_map]; rfl
  -- Without changes.
  have still : (∀ r ∈ x.segs, r.changes = false) → Rel fields (nstep st .commit).2 k d x := by
    intro hq
    refine ⟨h.segs, h.names, h.max, ?_, h.idx, h.subs, h.cache⟩
    rw [h.segs]
    exact all_disk h.subs (quiet_clean h.subs hq)
  cases x with
  | one r =>
    unfold irCommit
    dsimp only
    split
    · have hr := (all_cons.1 h.subs).1
      obtain ⟨f1, q1, r1, a1, a2, a3, a4, a5, a6⟩ := srCommit_ok hr
      rw [a1, Res.ok_bind]
      have hsub : All Sr.size (SegOk (fun n => if n ∈ q1 then none else f1 n) d.cfs [] fields st.has st.cur k) 0 [r1] := by
        rw [all_cons]
        exact ⟨a2.deleted, all_nil⟩
      refine ⟨_, _, rfl, ⟨rfl, ?_, ?_, ?_, ?_, hsub, fun mr e => by cases e⟩⟩
      · show ([r1.si.name] : List Name).Nodup
        simp
      · show st.max = ([r1].map Sr.size).sum
        rw [h.max]
        simp [Reader.segs, a5]
      · exact all_disk hsub (by intro x hx; rw [List.mem_singleton] at hx; subst hx; exact a6)
      · exact indexed_of hsub
    · rename_i hc
      refine ⟨d, _, rfl, still ?_⟩
      intro r' hr'
      have : r' = r := by simpa [Reader.segs] using hr'
      subst this
      simpa using hc
  | many mr =>
    obtain ⟨c1, c2, c3⟩ := h.cache mr rfl
    unfold irCommit
    dsimp only
    split
    · obtain ⟨f1, q1, rs1, a1, a2, a3, a4, a5, a6⟩ := commitSubs_ok mr.subs 0 d.files [] h.subs (by
        have hnames : (mr.subs.map fun r => r.si.name) = d.segs.map SI.name := hnames
        rw [hnames]
        exact h.names)
      rw [a1, Res.ok_bind]
      have hsub : All Sr.size (SegOk (fun n => if n ∈ q1 then none else f1 n) d.cfs [] fields st.has st.cur k) 0 rs1 := all_mono a2 (fun _ _ => SegOk.deleted)
      refine ⟨_, _, rfl, ⟨rfl, ?_, ?_, ?_, ?_, hsub, ?_⟩⟩
      · show ((rs1.map Sr.si).map SI.name).Nodup
        have : (rs1.map Sr.si).map SI.name = rs1.map fun r => r.si.name := by rw [List.map_map]; rfl
        rw [this, a4]
        have hnames : (mr.subs.map fun r => r.si.name) = d.segs.map SI.name := hnames
        rw [hnames]
        exact h.names
      · show st.max = (rs1.map Sr.size).sum
        rw [a5]
        exact h.max
      · exact all_disk hsub a6
      · exact indexed_of hsub
      · intro mr' e
        cases e
        refine ⟨c1, c2, ?_⟩
        intro _
        exact commitSubs_quiet a1
    · rename_i hc
      exact ⟨d, _, rfl, still (c3 (by simpa using hc))⟩

/-- A reader that is opened sees what is committed. -/
theorem irOpen_ok {st : NState} {d : Disk} {k : Nat} (hn : (d.segs.map SI.name).Nodup) (hm : st.max = (d.segs.map siSize).sum) (hd : All siSize (SiOk d.files d.cfs st.has st.saved k) 0 d.segs)
    (hi : Indexed fields d.segs) : ∃ x, irOpen d = .ok x ∧ Rel fields { st with cur := st.saved } k d x := by
  obtain ⟨rs, h1, h2, h3, h4⟩ := openAll_ok d d.segs 0 hd hi
  have hsz : rs.map Sr.size = d.segs.map siSize := by rw [← h3, List.map_map]; rfl
  have many : Rel fields { st with cur := st.saved } k d (.many ⟨rs, none, fun _ => none, fun _ => 0, false⟩) :=
    ⟨h3.symm, hn, by show st.max = (rs.map Sr.size).sum; rw [hsz]; exact hm, hd, hi, h2, fun mr e => by cases e; exact ⟨rfl, fun f y h => by simp at h, fun _ r hr => (h4 r hr).1⟩⟩
  unfold irOpen
  rw [h1, Res.ok_bind]
  rcases rs with _ | ⟨r, _ | ⟨r2, rs⟩⟩
  · exact ⟨_, rfl, many⟩
  · refine ⟨_, rfl, ⟨h3.symm, hn, ?_, hd, hi, h2, fun mr e => by cases e⟩⟩
    show st.max = ([r].map Sr.size).sum
    rw [hsz]
    exact hm
  · exact ⟨_, rfl, many⟩

/-- Documents that exist, and memory of the right size. -/
def opOk (max : Nat) : NOp → Prop
  | .set d _ _ => d < max
  | .into _ buf => buf.length = max
  | _ => True

theorem nstep_max (st : NState) (op : NOp) : (nstep st op).2.max = st.max := by cases op <;> rfl

theorem run_ok : ∀ (ops : List NOp) {st : NState} {d : Disk} {x : Reader}, Rel fields st ops.length d x → (∀ op ∈ ops, opOk st.max op) → run fields d x ops = .ok (nrun st ops) := by
  intro ops
  induction ops with
  | nil => intro st d x _ _; rfl
  | cons op ops ih =>
    intro st d x h hops
    have h : Rel fields st (ops.length + 1) d x := h
    have hrest : ∀ o ∈ ops, opOk (nstep st op).2.max o := by
      intro o ho
      rw [nstep_max]
      exact hops o (by simp [ho])
    have hop := hops op (by simp)
    have key : ∃ d' x', step fields d x op = .ok ((nstep st op).1, d', x') ∧ Rel fields (nstep st op).2 ops.length d' x' := by
      cases op with
      | set doc f v =>
        obtain ⟨x', h1, h2⟩ := irSet_ok h (f := f) (v := v) (show doc < st.max from hop)
        exact ⟨d, x', by unfold step; dsimp only; rw [h1, Res.ok_bind]; rfl, h2⟩
      | norms f =>
        obtain ⟨x', h1, h2⟩ := irNorms_ok h f
        exact ⟨d, x', by unfold step; dsimp only; rw [h1, Res.ok_bind]; rfl, h2.less⟩
      | into f buf =>
        exact ⟨d, x, by unfold step; dsimp only; rw [irInto_ok h f buf hop, Res.ok_bind]; rfl, h.less⟩
      | commit =>
        obtain ⟨d', x', h1, h2⟩ := irCommit_ok h.less
        exact ⟨d', x', by unfold step; dsimp only; rw [h1, Res.ok_bind]; rfl, h2⟩
      | other f =>
        have hm : st.max = (d.segs.map siSize).sum := by
          rw [h.max, h.segs, List.map_map]
          rfl
        obtain ⟨y, h1, h2⟩ := irOpen_ok (fields := fields) (st := st) h.names hm h.disk h.idx
        obtain ⟨y', h3, _⟩ := irNorms_ok h2 f
        exact ⟨d, x, by unfold step; dsimp only; rw [h1, Res.ok_bind, h3, Res.ok_bind]; rfl, h.less⟩
    obtain ⟨d', x', h1, h2⟩ := key
    unfold run
    rw [h1, Res.ok_bind]
    dsimp only
    rw [ih h2 hrest, Res.ok_bind]
    rfl

end

end Ferret.Norms
