import Verif.Model.FsDir
import Verif.Spec.FsDir
import Verif.Lemmas.Deleter

/-!
The store on disk does what a directory of named files does (C90).
-/

namespace Ferret.FsDir
open Ferret.Spec Ferret.Dlr

/-! ### Names and paths -/

theorem join_eq {dir n : Name} (h : PlainName dir n) : joinPath dir n = dir ++ 47 :: n := by
  unfold joinPath
  rw [List.take_of_length_le]
  have := h.fits
  simp only [List.length_append, List.length_cons, maxPath]
  omega

theorem join_inj {dir a b : Name} (ha : PlainName dir a) (hb : PlainName dir b) (h : joinPath dir a = joinPath dir b) : a = b := by
  rw [join_eq ha, join_eq hb] at h
  have := List.append_cancel_left h
  exact (List.cons.inj this).2

theorem plain_ne_nil {dir n : Name} (h : PlainName dir n) : n ≠ [] := by
  rintro rfl
  exact absurd h.first (by simp)

theorem nameIn_join {dir n : Name} (h : PlainName dir n) : nameIn dir (joinPath dir n) = some n := by
  rw [join_eq h]
  unfold nameIn
  have e : dir ++ 47 :: n = (dir ++ [47]) ++ n := by simp
  rw [e, if_pos (List.isPrefixOf_iff_prefix.2 (List.prefix_append _ _))]
  have hd : ((dir ++ [47]) ++ n).drop (dir.length + 1) = n := by
    have : dir.length + 1 = (dir ++ [47]).length := by simp
    rw [this, List.drop_left]
  dsimp only
  rw [hd, if_neg]
  rintro (h1 | h1)
  · exact plain_ne_nil h h1
  · rw [List.contains_iff_mem] at h1
    exact h.slash h1

theorem base_join {dir n : Name} (h : PlainName dir n) : baseName (joinPath dir n) = n := by
  unfold baseName
  rw [join_eq h, splitLast_append dir h.slash]

theorem indexName_is {n : Name} (h : IndexName n) : isIndexFile n = true := by
  unfold isIndexFile
  rcases h with ⟨stem, ext, rfl, h1, h2⟩ | ⟨h1, h2⟩
  · rw [splitLast_append stem h1]
    dsimp only
    rcases h2 with h2 | ⟨c, d, r, rfl, h3, h4, h5⟩
    · have : indexExts.contains ext = true := by
        rw [List.contains_iff_mem]
        exact h2
      rw [this, Bool.true_or]
    · have : digit1 (c :: d :: r) = true := by
        simp only [digit1, Bool.and_eq_true, decide_eq_true_eq]
        exact ⟨h4, h5⟩
      rw [this]
      rcases h3 with rfl | rfl <;> simp
  · rw [splitLast_none h1]
    exact List.isPrefixOf_iff_prefix.2 h2

theorem lockName_shape {n : Name} (h : LockName n) : isLockName n = true ∧ isIndexOrLock n = true := by
  obtain ⟨w, rfl⟩ := h
  constructor
  · unfold isLockName
    rw [Bool.and_eq_true, decide_eq_true_eq, List.length_append]
    have : lckExt.length = 4 := rfl
    refine ⟨by rw [List.length_append, this]; simp only [lockPrefix, List.length_cons]; omega, ?_⟩
    rw [this, Nat.add_sub_cancel, List.drop_left]
    rfl
  · unfold isIndexOrLock
    have e : lockPrefix ++ w ++ lckExt = (lockPrefix ++ w) ++ 46 :: lckWord := rfl
    have hp : ferretWord.isPrefixOf (lockPrefix ++ w ++ lckExt) = true := by
      rw [List.isPrefixOf_iff_prefix, show lockPrefix ++ w ++ lckExt = ferretWord ++ (45 :: (w ++ lckExt)) by simp [lockPrefix, ferretWord]]
      exact List.prefix_append _ _
    rw [hp, e, splitLast_append _ (by decide)]
    simp

theorem plain_indexOrLock {dir n : Name} (h : PlainName dir n) : isIndexOrLock n = true := by
  rcases h.kind with hk | hk
  · unfold isIndexOrLock
    rw [indexName_is hk, Bool.true_or]
  · exact (lockName_shape hk).2

/-! ### The relation -/

section
variable {os0 : OS} {dir : Name}

/-- A name that may be used. -/
def Good (os0 : OS) (dir : Name) (n : Name) : Prop := PlainName dir n ∧ os0.deny (joinPath dir n) = false

/-- How a binding of the directory looks in the operating system. -/
def bindAs (dir : Name) (k : Nat) (x : Name × Nat) : Path × Nat := (joinPath dir x.1, x.2 + k)

structure FRel (os0 : OS) (dir : Name) (s : DState) (os : OS) : Prop where
  files : os.files = os0.files ++ s.files
  paths : os.paths = s.names.map (bindAs dir os0.files.length) ++ os0.paths
  outs : os.outs = s.outs.map (Option.map fun x => (x.1 + os0.files.length, x.2))
  ins : os.ins = s.ins.map (Option.map (· + os0.files.length))
  deny : os.deny = os0.deny
  fd0 : os.fd0 = false
  good : ∀ x ∈ s.names, Good os0 dir x.1
  bound : ∀ x ∈ s.names, x.2 < s.files.length
  pos : ∀ (h i p : Nat), s.outs[h]? = some (some (i, p)) → ∃ f, s.files[i]? = some f ∧ p ≤ f.length

/-- What there is at first: no streams, nothing in the directory, descriptor 0 in use. -/
structure Fresh (os0 : OS) (dir : Name) : Prop where
  outs : os0.outs = []
  ins : os0.ins = []
  fd0 : os0.fd0 = false
  out : ∀ x ∈ os0.paths, nameIn dir x.1 = none

theorem frel_init (h : Fresh os0 dir) : FRel os0 dir emptyDir os0 where
  files := by simp [emptyDir]
  paths := by simp [emptyDir]
  outs := by rw [h.outs]; rfl
  ins := by rw [h.ins]; rfl
  deny := rfl
  fd0 := h.fd0
  good := by simp [emptyDir]
  bound := by simp [emptyDir]
  pos := by intro h i p hh; simp [emptyDir] at hh

variable (h0 : Fresh os0 dir) {s : DState} {os : OS} (hr : FRel os0 dir s os)
include h0 hr

theorem other_path {n : Name} (hn : PlainName dir n) : ∀ x ∈ os0.paths, (x.1 == joinPath dir n) = false := by
  intro x hx
  cases hb : (x.1 == joinPath dir n) with
  | false => rfl
  | true =>
    rw [beq_iff_eq] at hb
    have := h0.out x hx
    rw [hb, nameIn_join hn] at this
    exact absurd this (by simp)

omit h0 hr in
theorem find_map (n : Name) (hn : PlainName dir n) (k : Nat) : ∀ (l : List (Name × Nat)), (∀ x ∈ l, PlainName dir x.1) →
    (l.map (bindAs dir k)).find? (fun x => x.1 == joinPath dir n) = (l.find? (fun p => p.1 == n)).map (bindAs dir k) := by
  intro l
  induction l with
  | nil => intro _; rfl
  | cons x l ih =>
    intro hl
    rw [List.map_cons, List.find?_cons, List.find?_cons]
    have : ((bindAs dir k x).1 == joinPath dir n) = (x.1 == n) := by
      rw [Bool.eq_iff_iff, beq_iff_eq, beq_iff_eq]
      exact ⟨join_inj (hl x (by simp)) hn, fun e => by rw [← e]; rfl⟩
    rw [this]
    cases (x.1 == n) with
    | true => rfl
    | false => exact ih (fun y hy => hl y (by simp [hy]))

theorem find_eq {n : Name} (hn : PlainName dir n) : os.find (joinPath dir n) = (lookupName s.names n).map (· + os0.files.length) := by
  unfold OS.find lookupName
  rw [hr.paths, List.find?_append, find_map n hn _ _ (fun x hx => (hr.good x hx).1)]
  have : os0.paths.find? (fun x => x.1 == joinPath dir n) = none := by
    rw [List.find?_eq_none]
    intro x hx
    rw [other_path h0 hr hn x hx]
    simp
  rw [this, Option.or_none, Option.map_map, Option.map_map]
  rfl

theorem filter_eq {n : Name} (hn : PlainName dir n) (l : List (Name × Nat)) (hl : ∀ x ∈ l, PlainName dir x.1) :
    (l.map (bindAs dir os0.files.length) ++ os0.paths).filter (fun x => !(x.1 == joinPath dir n)) = (unbind l n).map (bindAs dir os0.files.length) ++ os0.paths := by
  rw [List.filter_append]
  congr 1
  · rw [List.filter_map]
    congr 1
    apply List.filter_congr
    intro x hx
    have : ((bindAs dir os0.files.length x).1 == joinPath dir n) = (x.1 == n) := by
      rw [Bool.eq_iff_iff, beq_iff_eq, beq_iff_eq]
      exact ⟨join_inj (hl x hx) hn, fun e => by rw [← e]; rfl⟩
    show (!((bindAs dir os0.files.length x).1 == joinPath dir n)) = _
    rw [this]
  · rw [List.filter_eq_self]
    intro x hx
    rw [other_path h0 hr hn x hx]
    rfl

theorem list_eq : os.list dir = s.names.map (·.1) := by
  unfold OS.list
  rw [hr.paths, List.filterMap_append]
  have h2 : os0.paths.filterMap (fun x => nameIn dir x.1) = [] := by
    rw [List.filterMap_eq_nil_iff]
    exact h0.out
  rw [h2, List.append_nil]
  have : ∀ (l : List (Name × Nat)), (∀ x ∈ l, PlainName dir x.1) → (l.map (bindAs dir os0.files.length)).filterMap (fun x => nameIn dir x.1) = l.map (·.1) := by
    intro l
    induction l with
    | nil => intro _; rfl
    | cons x l ih =>
      intro hl
      rw [List.map_cons, List.filterMap_cons, show nameIn dir (bindAs dir os0.files.length x).1 = some x.1 from nameIn_join (hl x (by simp)),
        ih (fun y hy => hl y (by simp [hy]))]
      rfl
  exact this s.names (fun x hx => (hr.good x hx).1)

omit h0 in
/-- Fewer names. -/
theorem FRel.fewer (names : List (Name × Nat)) (hsub : ∀ x ∈ names, x ∈ s.names) :
    FRel os0 dir { s with names := names } { os with paths := names.map (bindAs dir os0.files.length) ++ os0.paths } where
  files := hr.files
  paths := rfl
  outs := hr.outs
  ins := hr.ins
  deny := hr.deny
  fd0 := hr.fd0
  good := fun x hx => hr.good x (hsub x hx)
  bound := fun x hx => hr.bound x (hsub x hx)
  pos := hr.pos

omit h0 hr in
theorem unbind_sub {l : List (Name × Nat)} {n : Name} : ∀ x ∈ unbind l n, x ∈ l := fun _ hx => (List.mem_filter.1 hx).1

/-- Removing names one after the other. -/
theorem remove_all : ∀ (l : List Name) (names : List (Name × Nat)) (os' : OS), (∀ n ∈ l, PlainName dir n) → (∀ x ∈ names, PlainName dir x.1) →
    os'.paths = names.map (bindAs dir os0.files.length) ++ os0.paths →
    l.foldl (fun s n => (s.remove (joinPath dir n)).2) os' =
      { os' with paths := (names.filter (fun x => !l.contains x.1)).map (bindAs dir os0.files.length) ++ os0.paths } := by
  intro l
  induction l with
  | nil =>
    intro names os' _ _ hp
    have : names.filter (fun x => !([] : List Name).contains x.1) = names := by
      rw [List.filter_eq_self]
      intro x _
      rfl
    rw [List.foldl_nil, this, ← hp]
  | cons n l ih =>
    intro names os' hl hn hp
    rw [List.foldl_cons]
    have e : (os'.remove (joinPath dir n)).2 = { os' with paths := (unbind names n).map (bindAs dir os0.files.length) ++ os0.paths } := by
      unfold OS.remove
      rw [hp, filter_eq h0 hr (hl n (by simp)) names hn]
    rw [e, ih (unbind names n) _ (fun m hm => hl m (by simp [hm])) (fun x hx => hn x (unbind_sub x hx)) rfl]
    have : (unbind names n).filter (fun x => !l.contains x.1) = names.filter (fun x => !(n :: l).contains x.1) := by
      unfold unbind
      rw [List.filter_filter]
      apply List.filter_congr
      intro x _
      rw [List.contains_cons, Bool.not_or, Bool.and_comm]
    rw [this]

/-- Removing the names of the directory of which `q` holds. -/
theorem remove_which (q : Name → Bool) :
    (((os.list dir).filter q).foldl (fun s n => (s.remove (joinPath dir n)).2) os) =
      { os with paths := (s.names.filter (fun x => !q x.1)).map (bindAs dir os0.files.length) ++ os0.paths } := by
  rw [list_eq h0 hr]
  have hl : ∀ n ∈ (s.names.map (·.1)).filter q, PlainName dir n := by
    intro n hn
    rw [List.mem_filter, List.mem_map] at hn
    obtain ⟨⟨x, hx, rfl⟩, _⟩ := hn
    exact (hr.good x hx).1
  rw [remove_all h0 hr _ s.names os hl (fun x hx => (hr.good x hx).1) hr.paths]
  congr 3
  apply List.filter_congr
  intro x hx
  congr 1
  rw [Bool.eq_iff_iff, List.contains_iff_mem, List.mem_filter, List.mem_map]
  exact ⟨fun h => h.2, fun h => ⟨⟨x, hx, rfl⟩, h⟩⟩

theorem removeIf_which (q : Name → Bool) :
    (((os.list dir).filter q).foldl (removeIfIndex dir) os) =
      { os with paths := (s.names.filter (fun x => !q x.1)).map (bindAs dir os0.files.length) ++ os0.paths } := by
  rw [← remove_which h0 hr q]
  have hl : ∀ n ∈ (os.list dir).filter q, PlainName dir n := by
    intro n hn
    rw [List.mem_filter, list_eq h0 hr, List.mem_map] at hn
    obtain ⟨⟨x, hx, rfl⟩, _⟩ := hn
    exact (hr.good x hx).1
  generalize (os.list dir).filter q = l at hl
  clear hr
  induction l generalizing os with
  | nil => rfl
  | cons n l ih =>
    rw [List.foldl_cons, List.foldl_cons]
    have : removeIfIndex dir os n = (os.remove (joinPath dir n)).2 := by
      unfold removeIfIndex
      dsimp only
      rw [base_join (hl n (by simp)), if_pos (plain_indexOrLock (hl n (by simp)))]
    rw [this]
    exact ih (fun m hm => hl m (by simp [hm]))

omit h0 in
theorem outs_at (h : Nat) : os.outs[h]? = (s.outs[h]?).map (Option.map fun x => (x.1 + os0.files.length, x.2)) := by
  rw [hr.outs, List.getElem?_map]

omit h0 in
theorem ins_at (h : Nat) : os.ins[h]? = (s.ins[h]?).map (Option.map (· + os0.files.length)) := by
  rw [hr.ins, List.getElem?_map]

omit h0 in
theorem files_at (i : Nat) : os.files[i + os0.files.length]? = s.files[i]? := by
  rw [hr.files, List.getElem?_append_right (by omega), Nat.add_sub_cancel]

omit h0 in
theorem files_set (i : Nat) (f : List Byte) : os.files.set (i + os0.files.length) f = os0.files ++ s.files.set i f := by
  rw [hr.files, List.set_append_right _ _ (by omega), Nat.add_sub_cancel]

omit h0 in
/-- A new file. -/
theorem FRel.created {n : Name} (hg : Good os0 dir n) :
    FRel os0 dir { s with files := s.files ++ [[]], names := (n, s.files.length) :: s.names } (os.create (joinPath dir n)) where
  files := by simp [OS.create, hr.files]
  paths := by
    simp only [OS.create, List.map_cons, List.cons_append, bindAs]
    rw [hr.paths, hr.files, List.length_append, Nat.add_comm]
  outs := hr.outs
  ins := hr.ins
  deny := hr.deny
  fd0 := hr.fd0
  good := by
    intro x hx
    rcases List.mem_cons.1 hx with rfl | hx
    · exact hg
    · exact hr.good x hx
  bound := by
    intro x hx
    rw [List.length_append]
    rcases List.mem_cons.1 hx with rfl | hx
    · simp
    · have := hr.bound x hx
      simp only [List.length_cons, List.length_nil]
      omega
  pos := by
    intro h i p hh
    obtain ⟨f, h1, h2⟩ := hr.pos h i p hh
    exact ⟨f, by rw [List.getElem?_append_left (List.getElem?_eq_some_iff.1 h1).1]; exact h1, h2⟩

omit h0 in
theorem FRel.openOut (i : Nat) (hi : i < s.files.length) : FRel os0 dir { s with outs := s.outs ++ [some (i, 0)] } { os with outs := os.outs ++ [some (i + os0.files.length, 0)] } where
  files := hr.files
  paths := hr.paths
  outs := by simp [hr.outs]
  ins := hr.ins
  deny := hr.deny
  fd0 := hr.fd0
  good := hr.good
  bound := hr.bound
  pos := by
    intro h j p hh
    have hh : (s.outs ++ [some (i, 0)])[h]? = some (some (j, p)) := hh
    rw [List.getElem?_append] at hh
    split at hh
    · exact hr.pos h j p hh
    · rw [List.getElem?_singleton] at hh
      split at hh
      · simp only [Option.some.injEq, Prod.mk.injEq] at hh
        obtain ⟨rfl, rfl⟩ := hh
        exact ⟨_, List.getElem?_eq_getElem hi, by omega⟩
      · exact absurd hh (by simp)

omit h0 in
theorem FRel.openIn (i : Nat) : FRel os0 dir { s with ins := s.ins ++ [some i] } { os with ins := os.ins ++ [some (i + os0.files.length)] } where
  files := hr.files
  paths := hr.paths
  outs := hr.outs
  ins := by simp [hr.ins]
  deny := hr.deny
  fd0 := hr.fd0
  good := hr.good
  bound := hr.bound
  pos := hr.pos

omit h0 hr in
theorem lookup_mem {l : List (Name × Nat)} {n : Name} {i : Nat} (h : lookupName l n = some i) : (n, i) ∈ l := by
  unfold lookupName at h
  rw [Option.map_eq_some_iff] at h
  obtain ⟨x, h1, rfl⟩ := h
  have := List.find?_some h1
  simp only [beq_iff_eq] at this
  have hm := List.mem_of_find?_eq_some h1
  rw [← this]
  exact hm

omit h0 hr in
theorem writeFile_eq {f bs : List Byte} {p : Nat} (h : p ≤ f.length) : writeFile f p bs = writeAt f p bs := by
  unfold writeFile
  rw [show p - f.length = 0 by omega]
  simp

omit h0 hr in
theorem writeAt_len (f bs : List Byte) (p : Nat) (h : p ≤ f.length) : (writeAt f p bs).length = max f.length (p + bs.length) := by
  unfold writeAt
  simp only [List.length_append, List.length_take, List.length_drop]
  omega

/-- **One call.** -/
theorem doOp_spec {op : DOp} (hok : callOk (Good os0 dir) s op) {o : DObs} {s' : DState} (hs : dstep s op = some (o, s')) :
    ∃ os', doOp dir os op = .ok (o, os') ∧ FRel os0 dir s' os' := by
  have hd : ∀ n, Good os0 dir n → os.deny (joinPath dir n) = false := fun n hn => by rw [hr.deny]; exact hn.2
  cases op with
  | touch n =>
    obtain ⟨hn, hl⟩ := hok
    simp only [dstep, hl, Option.some.injEq, Prod.mk.injEq] at hs
    obtain ⟨rfl, rfl⟩ := hs
    refine ⟨_, ?_, hr.created hn⟩
    simp only [doOp, touch, OS.creat, hd n hn, find_eq h0 hr hn.1, hl, Option.map_none, Bool.false_eq_true, if_false, hr.fd0, Bool.and_false]
  | exist n =>
    simp only [dstep, Option.some.injEq, Prod.mk.injEq] at hs
    obtain ⟨rfl, rfl⟩ := hs
    refine ⟨os, ?_, hr⟩
    simp only [doOp, exist, hd n hok, find_eq h0 hr hok.1, Option.isSome_map, Bool.false_eq_true, if_false]
  | remove n =>
    simp only [dstep, Option.some.injEq, Prod.mk.injEq] at hs
    obtain ⟨rfl, rfl⟩ := hs
    refine ⟨_, ?_, hr.fewer _ unbind_sub⟩
    simp only [doOp, remove, OS.remove, find_eq h0 hr hok.1, Option.isSome_map]
    rw [hr.paths, filter_eq h0 hr hok.1 _ (fun x hx => (hr.good x hx).1)]
    cases (lookupName s.names n).isSome <;> rfl
  | rename a b =>
    obtain ⟨ha, hb⟩ := hok
    simp only [dstep] at hs
    cases hl : lookupName s.names a with
    | none =>
      rw [hl] at hs
      simp only [Option.some.injEq, Prod.mk.injEq] at hs
      obtain ⟨rfl, rfl⟩ := hs
      exact ⟨os, by simp only [doOp, rename, find_eq h0 hr ha.1, hl, Option.map_none], hr⟩
    | some i =>
      rw [hl] at hs
      simp only [Option.some.injEq, Prod.mk.injEq] at hs
      obtain ⟨rfl, rfl⟩ := hs
      have hmem := lookup_mem hl
      refine ⟨{ os with paths := ((b, i) :: unbind (unbind s.names a) b).map (bindAs dir os0.files.length) ++ os0.paths }, ?_, ?_⟩
      · simp only [doOp, rename, find_eq h0 hr ha.1, hl, Option.map_some]
        rw [hr.paths, filter_eq h0 hr ha.1 _ (fun x hx => (hr.good x hx).1), filter_eq h0 hr hb.1 _ (fun x hx => (hr.good x (unbind_sub x hx)).1)]
        rfl
      · exact {
          files := hr.files
          paths := rfl
          outs := hr.outs
          ins := hr.ins
          deny := hr.deny
          fd0 := hr.fd0
          good := by
            intro x hx
            rcases List.mem_cons.1 hx with rfl | hx
            · exact hb
            · exact hr.good x (unbind_sub x (unbind_sub x hx))
          bound := by
            intro x hx
            rcases List.mem_cons.1 hx with rfl | hx
            · exact hr.bound (a, i) hmem
            · exact hr.bound x (unbind_sub x (unbind_sub x hx))
          pos := hr.pos }
  | count =>
    simp only [dstep, Option.some.injEq, Prod.mk.injEq] at hs
    obtain ⟨rfl, rfl⟩ := hs
    refine ⟨os, ?_, hr⟩
    simp only [doOp, count, list_eq h0 hr]
    have : (s.names.map (·.1)).filter shown = s.names.map (·.1) := by
      rw [List.filter_eq_self]
      intro n hn
      rw [List.mem_map] at hn
      obtain ⟨x, hx, rfl⟩ := hn
      exact (hr.good x hx).1.first
    rw [this, List.length_map]
  | length n =>
    obtain ⟨hn, hl⟩ := hok
    rw [Option.isSome_iff_exists] at hl
    obtain ⟨i, hl⟩ := hl
    simp only [dstep, hl, Option.map_eq_some_iff, Prod.mk.injEq] at hs
    obtain ⟨f, hf, rfl, rfl⟩ := hs
    refine ⟨os, ?_, hr⟩
    simp only [doOp, length, find_eq h0 hr hn.1, hl, Option.map_some, files_at hr, hf, Res.ofOption, Res.ok_bind]
  | openOut n =>
    simp only [dstep] at hs
    cases hl : lookupName s.names n with
    | some i =>
      rw [hl] at hs
      simp only [Option.some.injEq, Prod.mk.injEq] at hs
      obtain ⟨rfl, rfl⟩ := hs
      refine ⟨_, ?_, hr.openOut i (hr.bound _ (lookup_mem hl))⟩
      simp only [doOp, openOut, hd n hok, find_eq h0 hr hok.1, hl, Option.map_some, Bool.false_eq_true, if_false]
      rw [hr.outs, List.length_map]
    | none =>
      rw [hl] at hs
      simp only [Option.some.injEq, Prod.mk.injEq] at hs
      obtain ⟨rfl, rfl⟩ := hs
      have hc := (hr.created hok).openOut s.files.length (by simp)
      refine ⟨_, ?_, hc⟩
      simp only [doOp, openOut, hd n hok, find_eq h0 hr hok.1, hl, Option.map_none, Bool.false_eq_true, if_false, OS.create]
      rw [show os.outs.length = s.outs.length by rw [hr.outs, List.length_map], show os.files.length = s.files.length + os0.files.length by rw [hr.files, List.length_append, Nat.add_comm]]
  | write h bs =>
    simp only [dstep] at hs
    split at hs
    · rename_i i p hh
      rw [Option.map_eq_some_iff] at hs
      obtain ⟨f, hf, hs⟩ := hs
      simp only [Prod.mk.injEq] at hs
      obtain ⟨rfl, rfl⟩ := hs
      obtain ⟨f', hf', hp⟩ := hr.pos h i p hh
      rw [hf, Option.some.injEq] at hf'
      subst hf'
      refine ⟨{ os with files := os0.files ++ s.files.set i (writeAt f p bs), outs := os.outs.set h (some (i + os0.files.length, p + bs.length)) }, ?_, ?_⟩
      · simp only [doOp, write, outs_at hr, hh, Option.map_some, files_at hr, hf, Res.ofOption, Res.ok_bind, files_set hr, writeFile_eq hp]
      · exact {
          files := rfl
          paths := hr.paths
          outs := by rw [hr.outs, List.map_set]; rfl
          ins := hr.ins
          deny := hr.deny
          fd0 := hr.fd0
          good := hr.good
          bound := by intro x hx; simpa using hr.bound x hx
          pos := by
            intro h' j q hq0
            have hi := (List.getElem?_eq_some_iff.1 hf).1
            have hq : (s.outs.set h (some (i, p + bs.length)))[h']? = some (some (j, q)) := hq0
            clear hq0
            show ∃ f', (s.files.set i (writeAt f p bs))[j]? = some f' ∧ q ≤ f'.length
            rw [List.getElem?_set] at hq
            split at hq
            · rename_i e
              subst e
              split at hq
              · simp only [Option.some.injEq, Prod.mk.injEq] at hq
                obtain ⟨rfl, rfl⟩ := hq
                exact ⟨_, by rw [List.getElem?_set_self hi], by rw [writeAt_len f bs p hp]; omega⟩
              · exact absurd hq (by simp)
            · obtain ⟨g, g1, g2⟩ := hr.pos h' j q hq
              by_cases hij : i = j
              · subst hij
                rw [hf, Option.some.injEq] at g1
                subst g1
                exact ⟨_, by rw [List.getElem?_set_self hi], by rw [writeAt_len f bs p hp]; omega⟩
              · exact ⟨g, by rw [List.getElem?_set_ne hij]; exact g1, g2⟩ }
    · exact absurd hs (by simp)
  | closeOut h =>
    simp only [dstep] at hs
    split at hs
    · rename_i x hh
      simp only [Option.some.injEq, Prod.mk.injEq] at hs
      obtain ⟨rfl, rfl⟩ := hs
      refine ⟨{ os with outs := os.outs.set h none }, ?_, ?_⟩
      · simp only [doOp, closeOut, outs_at hr, hh, Option.map_some, Res.ok_bind]
      · exact {
          files := hr.files
          paths := hr.paths
          outs := by rw [hr.outs, List.map_set]; rfl
          ins := hr.ins
          deny := hr.deny
          fd0 := hr.fd0
          good := hr.good
          bound := hr.bound
          pos := by
            intro h' j q hq0
            have hq : (s.outs.set h none)[h']? = some (some (j, q)) := hq0
            clear hq0
            rw [List.getElem?_set] at hq
            split at hq
            · split at hq
              · exact absurd hq (by simp)
              · exact absurd hq (by simp)
            · exact hr.pos h' j q hq }
    · exact absurd hs (by simp)
  | openIn n =>
    simp only [dstep] at hs
    cases hl : lookupName s.names n with
    | none =>
      rw [hl] at hs
      simp only [Option.some.injEq, Prod.mk.injEq] at hs
      obtain ⟨rfl, rfl⟩ := hs
      exact ⟨os, by simp only [doOp, openIn, hd n hok, find_eq h0 hr hok.1, hl, Option.map_none, Bool.false_eq_true, if_false], hr⟩
    | some i =>
      rw [hl] at hs
      simp only [Option.some.injEq, Prod.mk.injEq] at hs
      obtain ⟨rfl, rfl⟩ := hs
      refine ⟨_, ?_, hr.openIn i⟩
      simp only [doOp, openIn, hd n hok, find_eq h0 hr hok.1, hl, Option.map_some, Bool.false_eq_true, if_false]
      rw [hr.ins, List.length_map]
  | read h pos len =>
    simp only [dstep] at hs
    split at hs
    · rename_i i hh
      split at hs
      · rename_i f hf
        split at hs
        · rename_i hle
          simp only [Option.some.injEq, Prod.mk.injEq] at hs
          obtain ⟨rfl, rfl⟩ := hs
          refine ⟨os, ?_, hr⟩
          simp only [doOp, read, ins_at hr, hh, Option.map_some, files_at hr, hf, Res.ofOption, Res.ok_bind, if_pos hle]
        · exact absurd hs (by simp)
      · exact absurd hs (by simp)
    · exact absurd hs (by simp)
  | closeIn h =>
    simp only [dstep] at hs
    split at hs
    · rename_i i hh
      simp only [Option.some.injEq, Prod.mk.injEq] at hs
      obtain ⟨rfl, rfl⟩ := hs
      refine ⟨{ os with ins := os.ins.set h none }, ?_, ?_⟩
      · simp only [doOp, closeIn, ins_at hr, hh, Option.map_some, Res.ok_bind]
      · exact {
          files := hr.files
          paths := hr.paths
          outs := hr.outs
          ins := by rw [hr.ins, List.map_set]; rfl
          deny := hr.deny
          fd0 := hr.fd0
          good := hr.good
          bound := hr.bound
          pos := hr.pos }
    · exact absurd hs (by simp)
  | clear =>
    simp only [dstep, Option.some.injEq, Prod.mk.injEq] at hs
    obtain ⟨rfl, rfl⟩ := hs
    refine ⟨_, ?_, hr.fewer _ (fun _ hx => (List.mem_filter.1 hx).1)⟩
    simp only [doOp, clear, removeIf_which h0 hr]
    congr 5
    apply List.filter_congr
    intro x hx
    have : shown x.1 = true := (hr.good x hx).1.first
    simp [this]
  | clearLocks =>
    simp only [dstep, Option.some.injEq, Prod.mk.injEq] at hs
    obtain ⟨rfl, rfl⟩ := hs
    refine ⟨_, ?_, hr.fewer _ (fun _ hx => (List.mem_filter.1 hx).1)⟩
    simp only [doOp, clearLocks, remove_which h0 hr]
  | clearAll =>
    simp only [dstep, Option.some.injEq, Prod.mk.injEq] at hs
    obtain ⟨rfl, rfl⟩ := hs
    refine ⟨_, ?_, hr.fewer [] (by simp)⟩
    simp only [doOp, clearAll, removeIf_which h0 hr]
    congr 5
    rw [List.filter_eq_nil_iff]
    intro x hx
    have : shown x.1 = true := (hr.good x hx).1.first
    simp [this]

end

/-- **Any calls.** -/
theorem doOps_spec {os0 : OS} {dir : Name} (h0 : Fresh os0 dir) : ∀ (ops : List DOp) {s : DState} {os : OS}, FRel os0 dir s os → callsOk (Good os0 dir) s ops →
    ∀ {obs : List DObs} {s' : DState}, drun s ops = some (obs, s') → ∃ os', doOps dir os ops = .ok (obs, os') ∧ FRel os0 dir s' os' := by
  intro ops
  induction ops with
  | nil => intro s os hr _ obs s' h; cases h; exact ⟨os, rfl, hr⟩
  | cons op ops ih =>
    intro s os hr hok obs s' h
    simp only [drun, Option.bind_eq_some_iff, Option.map_eq_some_iff] at h
    obtain ⟨⟨o1, s1⟩, g1, ⟨o2, s2⟩, g2, g3⟩ := h
    cases g3
    obtain ⟨os1, k1, hr1⟩ := doOp_spec h0 hr hok.1 g1
    obtain ⟨os2, k2, hr2⟩ := ih hr1 (hok.2 _ _ g1) g2
    exact ⟨os2, by simp only [doOps, k1, Res.ok_bind, k2], hr2⟩

end Ferret.FsDir
