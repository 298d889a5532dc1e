import Verif.Lemmas.SegmentInfos

namespace Ferret.Spec
open Ferret

theorem Disk.get_apply_ne (d : Disk) (ev : DiskEv) (n : Name) (h : ev.name ≠ n) : (d.apply ev).get n = d.get n := by
  have hb : ∀ m : Name, m ≠ n → (m == n) = false := fun m hm => beq_eq_false_iff_ne.mpr hm
  cases ev with
  | create m =>
    simp only [DiskEv.name] at h
    simp only [Disk.apply]
    split
    · rfl
    · simp only [Disk.get, List.find?_append, List.find?_cons, hb m h, List.find?_nil, Option.or_none]
  | put m pos b =>
    simp only [DiskEv.name] at h
    simp only [Disk.apply, Disk.get]
    induction d with
    | nil => rfl
    | cons p d ih =>
      simp only [List.map_cons, List.find?_cons]
      by_cases hp : p.1 = m
      · have h1 : (p.1 == m) = true := beq_iff_eq.mpr hp
        have h2 : (p.1 == n) = false := hb _ (by rw [hp]; exact h)
        simp only [h1, if_true, h2]
        exact ih
      · have h1 : (p.1 == m) = false := beq_eq_false_iff_ne.mpr hp
        simp only [h1, Bool.false_eq_true, if_false]
        by_cases hn : (p.1 == n) = true
        · simp [hn]
        · simp only [hn]
          exact ih
  | del m =>
    simp only [DiskEv.name] at h
    simp only [Disk.apply, Disk.get]
    induction d with
    | nil => rfl
    | cons p d ih =>
      by_cases hp : p.1 = m
      · have h1 : (p.1 == m) = true := beq_iff_eq.mpr hp
        have h2 : (p.1 == n) = false := hb _ (by rw [hp]; exact h)
        rw [List.filter_cons_of_neg (by simp [h1]), List.find?_cons]
        simp only [h2]
        exact ih
      · have h1 : (p.1 == m) = false := beq_eq_false_iff_ne.mpr hp
        rw [List.filter_cons_of_pos (by simp [h1]), List.find?_cons, List.find?_cons]
        by_cases hn : (p.1 == n) = true
        · simp [hn]
        · simp only [hn]
          exact ih

theorem Disk.get_isSome (d : Disk) (n : Name) : (d.get n).isSome = true ↔ n ∈ d.names := by
  unfold Disk.get Disk.names
  rw [Option.isSome_map, List.find?_isSome]
  simp only [List.mem_map, beq_iff_eq]

theorem Disk.get_create (d : Disk) (n : Name) : (d.apply (.create n)).get n = some ((d.get n).getD []) := by
  simp only [Disk.apply]
  cases h : d.get n with
  | some c => simp [h]
  | none =>
    simp only [Option.isSome_none, Bool.false_eq_true, if_false, Option.getD_none]
    unfold Disk.get at h ⊢
    rw [Option.map_eq_none_iff] at h
    simp [List.find?_append, h]

theorem Disk.get_put (d : Disk) (n : Name) (pos : Nat) (b : Byte) (c : List Byte) (h : d.get n = some c) :
    (d.apply (.put n pos b)).get n = some (writeAt c pos [b]) := by
  simp only [Disk.apply, Disk.get] at *
  induction d with
  | nil => simp at h
  | cons p d ih =>
    simp only [List.find?_cons, List.map_cons] at h ⊢
    by_cases hp : (p.1 == n) = true
    · simp only [hp, Option.map_some, Option.some.injEq, if_true] at h ⊢
      rw [h]
    · simp only [hp, Bool.false_eq_true, if_false] at h ⊢
      exact ih h

theorem Disk.get_del (d : Disk) (n : Name) : (d.apply (.del n)).get n = none := by
  simp only [Disk.apply, Disk.get, Option.map_eq_none_iff]
  rw [List.find?_eq_none]
  intro p hp
  rw [List.mem_filter] at hp
  simpa using hp.2

theorem Disk.applyAll_append (d : Disk) (a b : List DiskEv) : d.applyAll (a ++ b) = (d.applyAll a).applyAll b := by
  simp [Disk.applyAll, List.foldl_append]

theorem Disk.get_applyAll_ne (evs : List DiskEv) : ∀ (d : Disk) (n : Name), (∀ ev ∈ evs, ev.name ≠ n) → (d.applyAll evs).get n = d.get n := by
  induction evs with
  | nil => intro d n _; rfl
  | cons ev evs ih =>
    intro d n h
    show ((d.apply ev).applyAll evs).get n = d.get n
    rw [ih _ _ (fun e he => h e (by simp [he])), Disk.get_apply_ne d ev n (h ev (by simp))]

theorem writeAt_cons (c : List Byte) (pos : Nat) (b : Byte) (bs : List Byte) (h : pos ≤ c.length) :
    writeAt (writeAt c pos [b]) (pos + 1) bs = writeAt c pos (b :: bs) ∧ pos + 1 ≤ (writeAt c pos [b]).length := by
  have key : ∀ (a r t : List Byte), writeAt (a ++ r) a.length t = a ++ t ++ r.drop t.length := by
    intro a r t
    unfold writeAt
    rw [List.take_left, List.drop_append, List.drop_of_length_le (by omega), List.nil_append]
    congr 2
    omega
  obtain ⟨a, r, e1, e2⟩ : ∃ a r : List Byte, c = a ++ r ∧ a.length = pos := ⟨c.take pos, c.drop pos, (List.take_append_drop pos c).symm, by simp; omega⟩
  subst e1 e2
  have e3 : writeAt (a ++ r) a.length [b] = (a ++ [b]) ++ r.drop 1 := by rw [key]; rfl
  have e4 : a.length + 1 = (a ++ [b]).length := by simp
  rw [e3, key, e4, key]
  refine ⟨by simp [List.drop_drop, Nat.add_comm], by simp⟩

theorem Disk.get_writeFrom (n : Name) : ∀ (bs : List Byte) (d : Disk) (pos : Nat) (c : List Byte), d.get n = some c → pos ≤ c.length →
    (d.applyAll (writeFrom n pos bs)).get n = some (writeAt c pos bs) := by
  intro bs
  induction bs with
  | nil =>
    intro d pos c h _
    simp only [writeFrom, Disk.applyAll, List.foldl_nil, h, writeAt, List.append_nil, List.length_nil, Nat.add_zero, List.take_append_drop]
  | cons b bs ih =>
    intro d pos c h hp
    show ((d.apply (.put n pos b)).applyAll (writeFrom n (pos + 1) bs)).get n = _
    obtain ⟨h1, h2⟩ := writeAt_cons c pos b bs hp
    rw [ih _ _ _ (Disk.get_put d n pos b c h) h2, h1]

theorem writeFrom_take (n : Name) : ∀ (bs : List Byte) (pos k : Nat), (writeFrom n pos bs).take k = writeFrom n pos (bs.take k) := by
  intro bs
  induction bs with
  | nil => intro pos k; simp [writeFrom]
  | cons b bs ih =>
    intro pos k
    cases k with
    | zero => rfl
    | succ k => simp only [writeFrom, List.take_succ_cons, ih]

theorem writeFrom_length (n : Name) : ∀ (bs : List Byte) (pos : Nat), (writeFrom n pos bs).length = bs.length := by
  intro bs
  induction bs with
  | nil => intro pos; rfl
  | cons b bs ih => intro pos; simp [writeFrom, ih]

theorem writeFrom_name (n : Name) : ∀ (bs : List Byte) (pos : Nat) (ev : DiskEv), ev ∈ writeFrom n pos bs → ev.name = n := by
  intro bs
  induction bs with
  | nil => intro pos ev h; simp [writeFrom] at h
  | cons b bs ih =>
    intro pos ev h
    simp only [writeFrom, List.mem_cons] at h
    rcases h with h | h
    · rw [h]; rfl
    · exact ih _ _ h

theorem writeFile_name (n : Name) (bs : List Byte) (ev : DiskEv) (h : ev ∈ writeFile n bs) : ev.name = n := by
  simp only [writeFile, List.mem_cons] at h
  rcases h with h | h
  · rw [h]; rfl
  · exact writeFrom_name _ _ _ _ h

theorem Disk.get_writeFile (d : Disk) (n : Name) (bs : List Byte) :
    (d.applyAll (writeFile n bs)).get n = some (bs ++ ((d.get n).getD []).drop bs.length) := by
  show ((d.apply (.create n)).applyAll (writeFrom n 0 bs)).get n = _
  rw [Disk.get_writeFrom n bs _ 0 _ (Disk.get_create d n) (Nat.zero_le _)]
  simp [writeAt]

/-- Names afterwards come from before or from the events. -/
theorem Disk.names_applyAll (evs : List DiskEv) : ∀ (d : Disk) (n : Name), n ∈ (d.applyAll evs).names → n ∈ d.names ∨ ∃ ev ∈ evs, ev.name = n := by
  intro d n h
  by_cases he : ∃ ev ∈ evs, ev.name = n
  · exact Or.inr he
  · left
    rw [← Disk.get_isSome] at h ⊢
    rwa [Disk.get_applyAll_ne evs d n (fun ev hev e => he ⟨ev, hev, e⟩)] at h

end Ferret.Spec

namespace Ferret.Sis
open Ferret Ferret.Spec Ferret.Fis Ferret.Names

/-- Does the name begin with "segments_"? -/
def isSeg (n : Name) : Bool := (segmentsFile ++ [95]).isPrefixOf n

theorem segfn_ok (g : Nat) (h : g < 2 ^ 64) : ∃ n p, segfn g = .ok n ∧ afterLast n = some p ∧ str36ToU64 0 p = g ∧ isSeg n = true := by
  obtain ⟨ds, h1, h2, h3, h4, h5⟩ := u64ToStr36_spec nameMax g h (by decide)
  refine ⟨segmentsFile ++ 95 :: ds, ds, ?_, afterLast_append _ _ (digit_ne_underscore h2), ?_, ?_⟩
  · unfold segfn sprintf
    rw [h1, Res.ok_bind, if_pos]
    simp only [List.length_append, List.length_cons, segmentsFile, nameMax, List.length_nil]
    omega
  · have := str36ToU64_spec ds 0 [] h2 (by simp) (by rw [h3]; exact h)
    rw [List.append_nil, h3] at this
    exact this
  · unfold isSeg segmentsFile
    simp [List.isPrefixOf]

theorem segfn_inj {g g' : Nat} {n : Name} (h : g < 2 ^ 64) (h' : g' < 2 ^ 64) (e : segfn g = .ok n) (e' : segfn g' = .ok n) : g = g' := by
  obtain ⟨n1, p, h1, h2, h3, -⟩ := segfn_ok g h
  obtain ⟨n2, p', h1', h2', h3', -⟩ := segfn_ok g' h'
  rw [h1] at e
  rw [h1'] at e'
  cases e
  cases e'
  rw [h2] at h2'
  cases h2'
  rw [← h3, ← h3']

theorem currentGeneration_max (names : List Name) (M : Nat) (hM : M < 2 ^ 63) (hle : ∀ n ∈ names, isSeg n = true → ∃ g : Nat, g ≤ M ∧ segfn g = .ok n)
    (hex : ∃ n ∈ names, segfn M = .ok n) : currentGeneration (-1) names = .ok (M : Int) := by
  have hs : ∀ g : Nat, g ≤ M → toS 8 g = (g : Int) := by
    intro g hg; unfold toS; rw [if_pos (by omega)]
  have key : ∀ (l : List Name) (m : Int), (∀ n ∈ l, isSeg n = true → ∃ g : Nat, g ≤ M ∧ segfn g = .ok n) → m ≤ M → (m = M ∨ ∃ n ∈ l, segfn M = .ok n) →
      currentGeneration m l = .ok (M : Int) := by
    intro l
    induction l with
    | nil =>
      intro m _ _ h
      rcases h with h | ⟨n, h, -⟩
      · rw [h]; rfl
      · simp at h
    | cons n ns ih =>
      intro m hl hm h
      simp only [currentGeneration, whichGen]
      by_cases hp : isSeg n = true
      · obtain ⟨g, hg, he⟩ := hl n (by simp) hp
        obtain ⟨n1, p, h1, h2, h3, -⟩ := segfn_ok g (by omega)
        rw [he] at h1
        cases h1
        have hp' := hp
        unfold isSeg at hp'
        rw [if_pos hp', h2]
        simp only [Res.ofOption, Res.ok_bind, h3, hs g hg]
        apply ih
        · exact fun x hx => hl x (by simp [hx])
        · split <;> omega
        · rcases h with h | ⟨x, hx, hxM⟩
          · left; split <;> omega
          · simp only [List.mem_cons] at hx
            rcases hx with hx | hx
            · subst hx
              have := segfn_inj (by omega) (by omega) he hxM
              left; subst this; split <;> omega
            · exact Or.inr ⟨x, hx, hxM⟩
      · have hp' : (segmentsFile ++ [95]).isPrefixOf n = false := Bool.eq_false_iff.mpr hp
        rw [if_neg (by rw [hp']; simp), Res.ok_bind]
        apply ih
        · exact fun x hx => hl x (by simp [hx])
        · exact hm
        · rcases h with h | ⟨x, hx, hxM⟩
          · exact Or.inl h
          · simp only [List.mem_cons] at hx
            rcases hx with hx | hx
            · subst hx
              obtain ⟨n1, p, h1, -, -, h4⟩ := segfn_ok M (by omega)
              rw [hxM] at h1
              cases h1
              exact absurd h4 hp
            · exact Or.inr ⟨x, hx, hxM⟩
  exact key names (-1) hle (by omega) (Or.inr hex)

theorem findGen_first (d : Disk) (M : Nat) (h : currentGeneration (-1) d.names = .ok (M : Int)) :
    findGen d ⟨0, -1, false, 0, 0⟩ = .ok ⟨M, M, false, 0, 0⟩ := by
  have h1 : ¬ ((M : Int) = -1) := by omega
  have h2 : ¬ ((-1 : Int) = M) := by omega
  simp [findGen, h, h1, h2]

/-- The first trial succeeds. -/
theorem findSegments_first {α : Type} (d : Disk) (run : Int → Res α) (M : Nat) (x : α) (h : currentGeneration (-1) d.names = .ok (M : Int)) (hr : run M = .ok x) :
    findSegments d run = .ok x := by
  have hf : findTry d run ⟨M, M, false, 0, 0⟩ = .ok (some x) := by simp only [findTry, hr]
  rw [findSegments, findLoop, findGen_first d M h, Res.ok_bind, hf]
  rfl

/-- The first trial fails and the one before succeeds. -/
theorem findSegments_previous {α : Type} (d : Disk) (run : Int → Res α) (M : Nat) (x : α) (e : Err) (prev : Name)
    (h : currentGeneration (-1) d.names = .ok ((M + 1 : Nat) : Int)) (hM : 0 < M) (hr : run ((M + 1 : Nat) : Int) = .raise e) (he : handled e = true)
    (hp : segfn M = .ok prev) (hM2 : M < 2 ^ 63) (hex : (d.get prev).isSome = true) (hr' : run M = .ok x) :
    findSegments d run = .ok x := by
  have h3 : ((M + 1 : Nat) : Int) - 1 = (M : Int) := by omega
  have h4 : toU 8 (M : Int) = M := by
    unfold toU
    rw [Int.emod_eq_of_lt (by omega) (by omega)]
    omega
  have h5 : ((M + 1 : Nat) : Int) > 1 := by omega
  have hf : findTry d run ⟨((M + 1 : Nat) : Int), ((M + 1 : Nat) : Int), false, 0, 0⟩ = .ok (some x) := by
    simp only [findTry, hr, he, if_true, h5, and_self, h3, h4, hp, Res.ok_bind, hex, hr']
  rw [findSegments, findLoop, findGen_first d (M + 1) h, Res.ok_bind, hf]
  rfl

end Ferret.Sis
