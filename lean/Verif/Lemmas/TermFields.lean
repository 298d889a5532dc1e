import Verif.Lemmas.TermEnum

/-! Lemmas about whole dictionaries: every field can be read back from the three files. -/

namespace Ferret.Dict
open Ferret Ferret.Expand

/-- What is written of a field in .tfx. -/
def stiBytes (d : Int × STI) : List Byte := vint d.1.toNat ++ (vint d.2.indexPtr ++ (vint d.2.ptr ++ (vint d.2.indexCnt ++ vint d.2.size)))

/-- Where a field is in the files. -/
structure FieldAt (si ii : Nat) (tis tix : List Byte) (x : Nat × List (Term × TI)) (d : Int × STI) : Prop where
  num : d.1 = x.1
  size : d.2.size = x.2.length
  cnt : d.2.indexCnt = (blocks si ii 0 d.2.ptr start x.2).length
  tisLe : d.2.ptr + (encFrom si start x.2).length ≤ tis.length
  tixLe : d.2.indexPtr ≤ tix.length
  tis : ∃ rest, tis.drop d.2.ptr = encFrom si start x.2 ++ rest
  tix : ∃ rest, tix.drop d.2.indexPtr = encIdx si start 0 (blocks si ii 0 d.2.ptr start x.2) ++ rest

theorem FieldAt.extend {si ii : Nat} {tis tix : List Byte} {x : Nat × List (Term × TI)} {d : Int × STI} (h : FieldAt si ii tis tix x d) (a b : List Byte) :
    FieldAt si ii (tis ++ a) (tix ++ b) x d := by
  obtain ⟨r1, h1⟩ := h.tis
  obtain ⟨r2, h2⟩ := h.tix
  have := h.tisLe
  refine ⟨h.num, h.size, h.cnt, by simp; omega, by simp; have := h.tixLe; omega, ⟨r1 ++ a, ?_⟩, ⟨r2 ++ b, ?_⟩⟩
  · rw [List.drop_append_of_le_length (by omega), h1, List.append_assoc]
  · rw [List.drop_append_of_le_length h.tixLe, h2, List.append_assoc]

theorem addFields_spec : ∀ (fs : List (Nat × List (Term × TI))) (w : TIW), 0 < w.indexInterval → ∃ (w' : TIW) (ds : List (Int × STI)), addFields w fs = .ok w' ∧ ds.length = fs.length ∧
    (∀ (i : Nat) x, fs[i]? = some x → ∃ d, ds[i]? = some d ∧ FieldAt w.skipInterval w.indexInterval w'.tis.os w'.tix.os x d) ∧
    w'.tfx ++ (vint w'.tix.counter ++ vint w'.tis.counter) = w.tfx ++ (vint w.tix.counter ++ vint w.tis.counter) ++ (ds.map stiBytes).flatten ∧
    w'.fieldCount = w.fieldCount + fs.length ∧ w'.skipInterval = w.skipInterval ∧ w'.indexInterval = w.indexInterval ∧
    (∃ a, w'.tis.os = w.tis.os ++ a) ∧ (∃ a, w'.tix.os = w.tix.os ++ a) := by
  intro fs
  induction fs with
  | nil => intro w _; exact ⟨w, [], rfl, rfl, fun i x h => by simp at h, by simp, rfl, rfl, rfl, ⟨[], by simp⟩, ⟨[], by simp⟩⟩
  | cons x fs ih =>
    obtain ⟨f, es⟩ := x
    intro w hw
    obtain ⟨w1, e1, a1, a2, a3, a4, a5, a6, a7, a8⟩ := addTerms_spec es (tiwStartField w f) hw
    simp only [tiwStartField, twReset, Nat.zero_add] at a1 a2 a3 a4 a5 a6 a7 a8
    obtain ⟨w', ds, e2, b1, b2, b3, b4, b5, b6, ⟨p, b7⟩, ⟨q, b8⟩⟩ := ih w1 (by rw [a7]; exact hw)
    have hst : (([], TI.zero) : Term × TI) = start := rfl
    rw [hst] at a1 a2 a4
    let d : Int × STI := ((f : Int), ⟨w.tix.os.length, w.tis.os.length, (blocks w.skipInterval w.indexInterval 0 w.tis.os.length start es).length, es.length⟩)
    have hd : FieldAt w.skipInterval w.indexInterval w1.tis.os w1.tix.os (f, es) d := by
      refine ⟨rfl, rfl, rfl, ?_, ?_, ⟨[], ?_⟩, ⟨[], ?_⟩⟩
      · rw [a1, List.length_append]; exact Nat.le_refl _
      · rw [a2, List.length_append]; exact Nat.le_add_right ..
      · rw [a1, List.append_nil]; exact List.drop_left
      · rw [a2, List.append_nil]; exact List.drop_left
    refine ⟨w', d :: ds, ?_, by simp [b1], ?_, ?_, ?_, b5.trans a8, b6.trans a7, ?_, ?_⟩
    · unfold addFields
      rw [e1, Res.ok_bind, e2]
    · intro i y hy
      cases i with
      | zero =>
        simp only [List.getElem?_cons_zero, Option.some.injEq] at hy
        subst hy
        refine ⟨d, rfl, ?_⟩
        rw [b7, b8]
        exact hd.extend p q
      | succ i =>
        simp only [List.getElem?_cons_succ] at hy ⊢
        obtain ⟨d', h1, h2⟩ := b2 i y hy
        rw [a7, a8] at h2
        exact ⟨d', h1, h2⟩
    · rw [b3, a3, a4, a5]
      simp only [List.map_cons, List.flatten_cons, stiBytes, d, List.append_assoc, Int.toNat_natCast]
    · rw [b4, a6, List.length_cons]; omega
    · exact ⟨encFrom w.skipInterval start es ++ p, by rw [b7, a1, List.append_assoc]⟩
    · exact ⟨_, by rw [b8, a2, List.append_assoc]⟩

theorem blocks_length_le (si ii : Nat) : ∀ (es : List (Term × TI)) (c pos : Nat) (last : Term × TI), (blocks si ii c pos last es).length ≤ es.length := by
  intro es
  induction es with
  | nil => intros; simp [blocks]
  | cons e es ih =>
    intro c pos last
    unfold blocks
    rw [List.length_append, List.length_cons]
    have := ih (c + 1) (pos + (entryBytes si last e.1 e.2).length) e
    split <;> simp <;> omega

theorem exact_sti (d : Int × STI) (f : Nat) (h1 : d.1 = f) (h2 : f < 2 ^ 31) (h3 : d.2.indexPtr < 2 ^ 64) (h4 : d.2.ptr < 2 ^ 64) (h5 : d.2.indexCnt < 2 ^ 32) (h6 : d.2.size < 2 ^ 32) :
    Exact stiRead (stiBytes d) d := by
  have hts : toS 4 d.1.toNat = d.1 := by unfold toS; rw [h1, Int.toNat_natCast, if_pos (by omega)]
  have hf : d.1.toNat < 2 ^ 32 := by rw [h1, Int.toNat_natCast]; omega
  have := (exact_vint d.1.toNat hf).bind (f := fun a l => rdVll l >>= fun x => rdVll x.2 >>= fun b => rdVint b.2 >>= fun c => rdVint c.2 >>= fun z => .ok ((toS 4 a, (⟨x.1, b.1, c.1, z.1⟩ : STI)), z.2))
    ((exact_vll _ h3).bind (f := fun x l => rdVll l >>= fun b => rdVint b.2 >>= fun c => rdVint c.2 >>= fun z => .ok ((toS 4 d.1.toNat, (⟨x, b.1, c.1, z.1⟩ : STI)), z.2))
      ((exact_vll _ h4).bind (f := fun b l => rdVint l >>= fun c => rdVint c.2 >>= fun z => .ok ((toS 4 d.1.toNat, (⟨d.2.indexPtr, b, c.1, z.1⟩ : STI)), z.2))
        ((exact_vint _ h5).bind (f := fun c l => rdVint l >>= fun z => .ok ((toS 4 d.1.toNat, (⟨d.2.indexPtr, d.2.ptr, c, z.1⟩ : STI)), z.2))
          ((exact_vint _ h6).map (fun z => (toS 4 d.1.toNat, (⟨d.2.indexPtr, d.2.ptr, d.2.indexCnt, z⟩ : STI)))))))
  rw [hts] at this
  exact this

/-- The last of the fields read that has a number. -/
theorem foldl_dict (ds : List (Int × STI)) (hnd : (ds.map (·.1)).Nodup) (f : Int) : ∀ r, ds.foldl (fun r d => if d.1 = f then some d.2 else r) r = ((ds.find? fun d => d.1 = f).map (·.2)).or r := by
  induction ds with
  | nil => intro r; simp
  | cons d ds ih =>
    intro r
    simp only [List.map_cons, List.nodup_cons] at hnd
    rw [List.foldl_cons, ih hnd.2, List.find?_cons]
    by_cases h : d.1 = f
    · have : ds.find? (fun d => decide (d.1 = f)) = none := by
        rw [List.find?_eq_none]
        intro x hx
        simp only [decide_eq_true_eq]
        exact fun hxf => hnd.1 (by rw [h, ← hxf]; exact List.mem_map_of_mem hx)
      rw [this]
      simp [h]
    · simp [h]

/-- The entries of a field. -/
def entriesOf (fields : List (Nat × List (Term × TI))) (f : Int) : List (Term × TI) :=
  ((fields.find? fun x => decide ((x.1 : Int) = f)).map (·.2)).getD []

/-- What can be written: the numbers fit their types. -/
structure FieldsFit (ii si : Nat) (fields : List (Nat × List (Term × TI))) : Prop where
  iiPos : 0 < ii
  iiLt : ii < 2 ^ 31
  siLt : si < 2 ^ 31
  count : fields.length < 2 ^ 31
  nums : (fields.map (·.1)).Nodup
  numLt : ∀ x ∈ fields, x.1 < 2 ^ 31
  sizes : ∀ x ∈ fields, x.2.length < 2 ^ 31
  fits : ∀ x ∈ fields, FitsAll start x.2

theorem writeAt_zero (a b c : List Byte) (h : b.length = a.length) : writeAt (a ++ c) 0 b = b ++ c := by
  unfold writeAt
  rw [h, Nat.zero_add, List.drop_left]; simp

theorem dict_spec (ii si : Nat) (fields : List (Nat × List (Term × TI))) (h : FieldsFit ii si fields) :
    ∃ fs, writeDict ii si fields = .ok fs ∧ (fs.tis.length < 2 ^ 64 → fs.tix.length < 2 ^ 64 →
      ∃ sfi, sfiOpen fs = .ok sfi ∧ sfi.skipInterval = si ∧ sfi.indexInterval = ii ∧
        ∀ f : Int, (sfi.dict f = none ∧ entriesOf fields f = []) ∨ ∃ sti, sfi.dict f = some sti ∧ FieldOK sfi fs.tis sti (entriesOf fields f)) := by
  obtain ⟨w, ds, e1, e2, e3, e4, e5, e6, e7, -, -⟩ := addFields_spec fields (tiwOpen ii si) h.iiPos
  simp only [tiwOpen, twNew] at e3 e4 e5 e6 e7
  rw [Nat.zero_add] at e5
  refine ⟨tiwClose w, by unfold writeDict; rw [e1, Res.ok_bind], fun hl1 hl2 => ?_⟩
  have hl1' : w.tis.os.length < 2 ^ 64 := hl1
  have hl2' : w.tix.os.length < 2 ^ 64 := hl2
  -- the fields read
  have hds : ∀ d ∈ ds, ∃ x ∈ fields, FieldAt si ii w.tis.os w.tix.os x d := by
    intro d hd
    obtain ⟨i, hi⟩ := List.getElem?_of_mem hd
    have hlt : i < fields.length := by rw [← e2]; exact (List.getElem?_eq_some_iff.1 hi).1
    obtain ⟨d', h1, h2⟩ := e3 i _ (List.getElem?_eq_getElem hlt)
    rw [hi] at h1
    cases Option.some.inj h1
    exact ⟨_, List.getElem_mem hlt, h2⟩
  have hexact : ∀ d ∈ ds, Exact stiRead (stiBytes d) d := by
    intro d hd
    obtain ⟨x, hx, hat⟩ := hds d hd
    have hb := blocks_length_le si ii x.2 0 d.2.ptr start
    have := h.sizes x hx
    have := hat.tisLe
    have := hat.tixLe
    exact exact_sti d x.1 hat.num (h.numLt x hx) (by omega) (by omega) (by rw [hat.cnt]; omega) (by rw [hat.size]; omega)
  have hnums : ds.map (·.1) = fields.map fun x => (x.1 : Int) := by
    apply List.ext_getElem?
    intro i
    rw [List.getElem?_map, List.getElem?_map]
    cases hi : fields[i]? with
    | none =>
      have : ds[i]? = none := by rw [List.getElem?_eq_none_iff] at hi ⊢; omega
      rw [this]; rfl
    | some x =>
      obtain ⟨d, h1, h2⟩ := e3 i x hi
      rw [h1]
      simp only [Option.map_some, h2.num]
  have hnd : (ds.map (·.1)).Nodup := by
    rw [hnums, show (fields.map fun x => (x.1 : Int)) = (fields.map (·.1)).map Int.ofNat by rw [List.map_map]; rfl]
    have hnn := h.nums
    rw [List.Nodup] at hnn ⊢
    rw [List.pairwise_map]
    exact hnn.imp fun hne he => hne (Int.ofNat.inj he)
  have htfx : (tiwClose w).tfx = beBytes 4 fields.length ++ (vint ii ++ (vint si ++ (ds.map stiBytes).flatten)) := by
    unfold tiwClose
    dsimp only
    rw [e4, e5]
    simp only [List.append_assoc]
    exact writeAt_zero _ _ _ (by rw [beBytes_length, beBytes_length])
  have hlen : ds.length = fields.length := e2
  have hopen : sfiOpen (tiwClose w) = .ok ⟨si, ii, fun f => ds.foldl (fun r d => if d.1 = f then some d.2 else r) none, w.tix.os⟩ := by
    unfold sfiOpen
    have hc := h.count
    have := h.iiLt
    have := h.siLt
    rw [htfx, (exact_be 4 fields.length (Nat.lt_of_lt_of_le hc (by decide))).full, Res.ok_bind]
    dsimp only
    rw [rdVint_vint _ (by omega), Res.ok_bind]
    dsimp only
    rw [rdVint_vint _ (by omega), Res.ok_bind]
    dsimp only
    have hn : (if toS 4 fields.length > 0 then fields.length else 0) = ds.length := by
      rw [hlen]
      have : toS 4 fields.length = fields.length := by unfold toS; rw [if_pos (by omega)]
      rw [this]
      split <;> omega
    rw [hn]
    have := (exact_many stiRead stiBytes ds hexact).whole
    rw [this, Res.ok_bind]
    rfl
  refine ⟨_, hopen, rfl, rfl, fun f => ?_⟩
  dsimp only
  rw [foldl_dict ds hnd, Option.or_none]
  unfold entriesOf
  -- the same field is found in both lists
  have hboth : ∀ (ds : List (Int × STI)) (fields : List (Nat × List (Term × TI))), ds.length = fields.length →
      (∀ (i : Nat) x, fields[i]? = some x → ∃ d, ds[i]? = some d ∧ FieldAt si ii w.tis.os w.tix.os x d) →
      (ds.find? (fun d => decide (d.1 = f)) = none ∧ fields.find? (fun x => decide ((x.1 : Int) = f)) = none) ∨
      ∃ d x, ds.find? (fun d => decide (d.1 = f)) = some d ∧ fields.find? (fun x => decide ((x.1 : Int) = f)) = some x ∧ FieldAt si ii w.tis.os w.tix.os x d := by
    intro ds
    induction ds with
    | nil => intro fields hl _; rw [List.length_nil] at hl; rw [List.length_eq_zero_iff.1 hl.symm]; exact Or.inl ⟨rfl, rfl⟩
    | cons d ds ih =>
      intro fields hl hat
      match fields, hl, hat with
      | [], hl, _ => simp at hl
      | x :: fields, hl, hat =>
        obtain ⟨d', h1, h2⟩ := hat 0 x rfl
        simp only [List.getElem?_cons_zero, Option.some.injEq] at h1
        subst h1
        rw [List.find?_cons, List.find?_cons]
        by_cases hdf : d.1 = f
        · right
          refine ⟨d, x, by simp [hdf], by simp [← h2.num, hdf], h2⟩
        · have hxf : ¬ (x.1 : Int) = f := fun h => hdf (h2.num.trans h)
          simp only [decide_eq_true_eq, hdf, hxf, decide_false]
          exact ih fields (by simpa using hl) (fun i y hy => hat (i + 1) y (by simpa using hy))
  rcases hboth ds fields hlen e3 with ⟨h1, h2⟩ | ⟨d, x, h1, h2, hat⟩
  · left; rw [h1, h2]; exact ⟨rfl, rfl⟩
  · right
    rw [h1, h2]
    have hx : x ∈ fields := List.mem_of_find?_eq_some h2
    obtain ⟨r1, t1⟩ := hat.tis
    obtain ⟨r2, t2⟩ := hat.tix
    have := hat.tisLe
    exact ⟨d.2, rfl, fieldOK_of_bytes _ _ _ _ r1 r2 h.iiPos (h.fits x hx) hat.size hat.cnt (show d.2.ptr + (encFrom si start x.2).length < 2 ^ 64 by omega) t1 t2⟩

end Ferret.Dict
