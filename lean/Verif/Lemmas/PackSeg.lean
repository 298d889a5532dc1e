import Verif.Model.PackSeg
import Verif.Spec.PackSeg
import Verif.Props.C12
import Verif.Props.C14

namespace Ferret.PackSeg
open Ferret Ferret.Spec Ferret.Store Ferret.Names Ferret.Sis Ferret.Dlr Ferret.Compound Ferret.Fis Ferret.Props

/-! ### The new segment's norms -/

structure NewSeg (name : Name) (size : Nat) (done : List Nat) (si : SI) : Prop where
  name : si.name = name
  plain : si.compound = false
  len : si.normGens.length ≤ size
  gens : ∀ (f : Nat) (g : Int), si.normGens[f]? = some g → g = if f ∈ done then 0 else -1
  all : ∀ f ∈ done, si.normGens[f]? = some 0

theorem advance_newSeg {name : Name} {size : Nat} {done : List Nat} {si : SI} (h : NewSeg name size done si) {f : Nat} (hf : f < size) (hn : f ∉ done) :
    NewSeg name size (f :: done) (advanceNormGen si f) := by
  have hget : ∀ j : Nat, (advanceNormGen si f).normGens[j]? =
      if f = j then some 0 else if j < si.normGens.length then si.normGens[j]? else if j < f then some (-1) else none := by
    intro j
    simp only [advanceNormGen, List.getElem?_modify]
    by_cases hfj : f = j
    · subst hfj
      rw [if_pos rfl]
      by_cases hl : f ≥ si.normGens.length
      · rw [if_pos hl, List.getElem?_append_right hl, List.getElem?_replicate, if_pos (by omega)]
        simp
      · rw [if_neg hl]
        have hg : si.normGens[f]? = some si.normGens[f] := List.getElem?_eq_getElem (by omega)
        have := h.gens f _ hg
        rw [if_neg hn] at this
        rw [hg, this]
        simp
    · rw [if_neg hfj]
      simp only [hfj, if_false]
      by_cases hl : f ≥ si.normGens.length
      · rw [if_pos hl]
        by_cases hj : j < si.normGens.length
        · rw [List.getElem?_append_left hj, if_pos hj]; simp
        · rw [List.getElem?_append_right (by omega), List.getElem?_replicate, if_neg hj]
          by_cases hjf : j < f
          · rw [if_pos (by omega), if_pos hjf]; simp
          · rw [if_neg (by omega), if_neg hjf]; simp
      · rw [if_neg hl]
        by_cases hj : j < si.normGens.length
        · rw [if_pos hj]; simp
        · rw [if_neg hj, if_neg (by omega), List.getElem?_eq_none (by omega)]; simp
  refine ⟨h.name, h.plain, ?_, ?_, ?_⟩
  · have hl := h.len
    simp only [advanceNormGen, List.length_modify]
    split
    · rw [List.length_append, List.length_replicate]; omega
    · exact hl
  · intro j g hg
    rw [hget] at hg
    by_cases hfj : f = j
    · rw [if_pos hfj] at hg
      rw [if_pos (by simp [hfj])]
      exact (Option.some.inj hg).symm
    · rw [if_neg hfj] at hg
      have hiff : j ∈ f :: done ↔ j ∈ done := by simp [Ne.symm hfj]
      simp only [hiff]
      split at hg
      · exact h.gens j g hg
      · rename_i hj
        split at hg
        · rw [if_neg]
          · exact (Option.some.inj hg).symm
          · intro hd
            have := h.all j hd
            rw [List.getElem?_eq_none (by omega)] at this
            cases this
        · cases hg
  · intro j hj
    rw [hget]
    by_cases hfj : f = j
    · rw [if_pos hfj]
    · rw [if_neg hfj]
      have hd : j ∈ done := by
        rcases List.mem_cons.1 hj with e | e
        · exact absurd e.symm hfj
        · exact e
      have := h.all j hd
      have hlt : j < si.normGens.length := by
        apply Classical.byContradiction
        intro hc
        rw [List.getElem?_eq_none (by omega)] at this
        cases this
      rw [if_pos hlt]
      exact this

theorem newSegmentInfo_spec (name : Name) (docs : Int) (size : Nat) : ∀ (fields done : List Nat) (si : SI), NewSeg name size done si →
    (∀ f ∈ fields, f < size) → fields.Nodup → (∀ f ∈ fields, f ∉ done) →
    NewSeg name size (fields.reverse ++ done) (fields.foldl advanceNormGen si) := by
  intro fields
  induction fields with
  | nil => intro done si h _ _ _; exact h
  | cons f fields ih =>
    intro done si h hs hn hd
    rw [List.foldl_cons, List.reverse_cons, List.append_assoc, List.singleton_append]
    have hn' := List.nodup_cons.1 hn
    refine ih (f :: done) _ (advance_newSeg h (hs f (by simp)) (hd f (by simp))) (fun g hg => hs g (by simp [hg])) hn'.2 ?_
    intro g hg hm
    rcases List.mem_cons.1 hm with e | e
    · subst e; exact hn'.1 hg
    · exact hd g (by simp [hg]) e

/-! ### Names -/

def dec (f : Nat) : Name := match decimal f with | .ok d => d | _ => []

theorem dec_ok {f : Nat} (h : f < 2 ^ 31) : decimal f = .ok (dec f) ∧ (dec f).length ≤ 10 := by
  obtain ⟨ds, h1, -, -, h4⟩ := decimal_spec f h
  have : dec f = ds := by unfold dec; rw [h1]
  rw [this]
  exact ⟨h1, h4⟩

/-- The name of the norms of generation 0. -/
def nm (name : Name) (f : Nat) : Name := name ++ 95 :: [48] ++ 46 :: ([102] ++ dec f)

theorem fnForGenField_nm {name : Name} (hl : name.length ≤ 60) {f : Nat} (h : f < 2 ^ 31) :
    fnForGenField name [102] 0 f = .ok (some (nm name f)) := by
  obtain ⟨h1, h2⟩ := dec_ok h
  have hu : u64ToStr36 nameMax (toU 8 0) = .ok [48] := by decide +kernel
  unfold fnForGenField
  rw [if_neg (by decide), hu, Res.ok_bind, h1, Res.ok_bind]
  unfold sprintf
  rw [if_pos]
  · rfl
  · simp only [List.length_append, List.length_cons, List.length_nil, nameMax]; omega

theorem nm_inj {name : Name} (hl : name.length ≤ 60) {f g : Nat} (hf : f < 2 ^ 31) (hg : g < 2 ^ 31) (h : nm name f = nm name g) : f = g :=
  (c14_norm_names_distinct name name [102] [102] 0 0 f g (nm name f) (by unfold isGen; omega) (by unfold isGen; omega) hf hg (by decide) (by decide)
    (fnForGenField_nm hl hf) (by rw [h]; exact fnForGenField_nm hl hg)).2.2.2

theorem normFileName_spec {name : Name} (hl : name.length ≤ 60) {size : Nat} {done : List Nat} {si : SI} (h : NewSeg name size done si) (b : Bool) {f : Nat} (hf : f < 2 ^ 31) :
    normFileName { si with compound := b } f = .ok (if f ∈ done then some (nm name f) else none) := by
  unfold normFileName
  cases hg : si.normGens[f]? with
  | none =>
    simp only [hg]
    rw [if_neg]
    intro hd
    rw [h.all f hd] at hg
    cases hg
  | some g =>
    simp only [hg]
    have := h.gens f g hg
    by_cases hd : f ∈ done
    · rw [if_pos hd] at this ⊢
      subst this
      have e : (if b = true ∧ (0 : Int) > 0 then ([115] : Name) else [102]) = [102] := if_neg (by simp)
      rw [if_neg (by decide), e, h.name]
      exact fnForGenField_nm hl hf
    · rw [if_neg hd] at this ⊢
      subst this
      rw [if_pos (by decide)]

/-- The names of the norms, from the last field to the first. -/
def normNames (name : Name) (done : List Nat) : Nat → List Name
  | 0 => []
  | i + 1 => if i ∈ done then nm name i :: normNames name done i else normNames name done i

theorem mem_normNames {name : Name} {done : List Nat} : ∀ {i : Nat} {n : Name}, n ∈ normNames name done i → ∃ f, f < i ∧ n = nm name f := by
  intro i
  induction i with
  | zero => intro n h; cases h
  | succ i ih =>
    intro n h
    simp only [normNames] at h
    split at h
    · rcases List.mem_cons.1 h with e | e
      · exact ⟨i, by omega, e⟩
      · obtain ⟨f, h1, h2⟩ := ih e
        exact ⟨f, by omega, h2⟩
    · obtain ⟨f, h1, h2⟩ := ih h
      exact ⟨f, by omega, h2⟩

theorem normNames_distinct {name : Name} (hl : name.length ≤ 60) (done : List Nat) : ∀ i : Nat, i < 2 ^ 31 → (normNames name done i).Pairwise (· ≠ ·) := by
  intro i
  induction i with
  | zero => intro _; exact List.Pairwise.nil
  | succ i ih =>
    intro hi
    simp only [normNames]
    split
    · refine List.pairwise_cons.2 ⟨?_, ih (by omega)⟩
      intro n hn e
      obtain ⟨f, h1, h2⟩ := mem_normNames hn
      rw [h2] at e
      have := nm_inj hl (by omega) (by omega) e
      omega
    · exact ih (by omega)

/-- Fields without norms change nothing. -/
theorem normNames_more {name : Name} {done : List Nat} {i j : Nat} (hij : i ≤ j) (h : ∀ f ∈ done, f < i) : normNames name done j = normNames name done i := by
  induction j with
  | zero => have : i = 0 := by omega
            rw [this]
  | succ j ih =>
    by_cases e : i = j + 1
    · rw [e]
    · rw [normNames, if_neg (fun hd => by have := h j hd; omega)]
      exact ih (by omega)

theorem normNames_length {name : Name} {done : List Nat} : ∀ i : Nat, (normNames name done i).length ≤ i := by
  intro i
  induction i with
  | zero => exact Nat.le_refl _
  | succ i ih =>
    simp only [normNames]
    split
    · rw [List.length_cons]; omega
    · omega

theorem extName_ok {si : SI} {name : Name} (hn : si.name = name) (hl : name.length ≤ 60) {e : Name} (he : e.length = 3) : extName si e = .ok (name ++ 46 :: e) := by
  unfold extName sprintf
  rw [hn, if_pos]
  simp only [List.length_append, List.length_cons, nameMax]
  omega

theorem ext_ne_nm (name e : Name) (f : Nat) : name ++ 46 :: e ≠ nm name f := by
  intro h
  unfold nm at h
  rw [List.append_assoc] at h
  have := List.append_cancel_left h
  simp at this

/-! ### Moving -/

theorem move_ok {p ids : List Name} {n : Name} (h : n ∉ ids) : move (p, ids) n = .ok (queueFile p n, ids ++ [n]) := by
  unfold move cwAdd
  rw [if_neg (by simpa using h)]
  rfl

theorem moveExts_spec {si : SI} {name : Name} (hn : si.name = name) (hl : name.length ≤ 60) : ∀ (es : List Name) (p ids : List Name), (∀ e ∈ es, e.length = 3) →
    (ids ++ es.map fun e => name ++ 46 :: e).Pairwise (· ≠ ·) →
    moveExts si es (p, ids) = .ok ((es.map fun e => name ++ 46 :: e).foldl queueFile p, ids ++ es.map fun e => name ++ 46 :: e) := by
  intro es
  induction es with
  | nil => intro p ids _ _; simp [moveExts]
  | cons e es ih =>
    intro p ids he hp
    rw [moveExts, extName_ok hn hl (he e (by simp)), Res.ok_bind, move_ok, Res.ok_bind, ih _ _ (fun x hx => he x (by simp [hx]))]
    · simp
    · simpa using hp
    · intro hm
      rw [List.pairwise_append] at hp
      exact hp.2.2 _ hm _ (by simp) rfl

theorem moveNorms_spec {name : Name} (hl : name.length ≤ 60) {size : Nat} {done : List Nat} {si : SI} (h : NewSeg name size done si) (fields : List FI)
    (hd : ∀ f ∈ done, ∃ fi, fields[f]? = some fi ∧ hasNorms fi = true) : ∀ (i : Nat) (p ids : List Name), i ≤ fields.length → i < 2 ^ 31 →
    (ids ++ normNames name done i).Pairwise (· ≠ ·) →
    moveNorms fields si i (p, ids) = .ok ((normNames name done i).foldl queueFile p, ids ++ normNames name done i) := by
  intro i
  induction i with
  | zero => intro p ids _ _ _; simp [moveNorms, normNames]
  | succ i ih =>
    intro p ids hi hi' hp
    rw [moveNorms, List.getElem?_eq_getElem (by omega : i < fields.length)]
    simp only [Res.ofOption, Res.ok_bind]
    have hnf := normFileName_spec hl h si.compound (f := i) (by omega)
    have e : ({ si with compound := si.compound } : SI) = si := rfl
    rw [e] at hnf
    by_cases hm : i ∈ done
    · obtain ⟨fi, h1, h2⟩ := hd i hm
      rw [List.getElem?_eq_getElem (by omega : i < fields.length)] at h1
      rw [Option.some.inj h1, if_pos h2, hnf, if_pos hm, Res.ok_bind]
      have hnn : normNames name done (i + 1) = nm name i :: normNames name done i := by rw [normNames, if_pos hm]
      rw [hnn] at hp ⊢
      dsimp only
      rw [move_ok, Res.ok_bind, ih _ _ (by omega) (by omega)]
      · simp
      · simpa using hp
      · intro hx
        rw [List.pairwise_append] at hp
        exact hp.2.2 _ hx _ (by simp) rfl
    · have hnn : normNames name done (i + 1) = normNames name done i := by rw [normNames, if_neg hm]
      rw [hnn] at hp ⊢
      split
      · rw [hnf, if_neg hm, Res.ok_bind]
        exact ih _ _ (by omega) (by omega) hp
      · exact ih _ _ (by omega) (by omega) hp

theorem mem_queue {p : List Name} {n m : Name} : m ∈ queueFile p n ↔ m ∈ p ∨ m = n := by
  unfold queueFile
  split
  · rename_i h
    have : n ∈ p := by simpa using h
    constructor
    · exact .inl
    · rintro (h | h)
      · exact h
      · rw [h]; exact this
  · simp

theorem mem_queueAll : ∀ (ns p : List Name) (m : Name), m ∈ ns.foldl queueFile p ↔ m ∈ p ∨ m ∈ ns := by
  intro ns
  induction ns with
  | nil => intro p m; simp
  | cons n ns ih => intro p m; rw [List.foldl_cons, ih, mem_queue, List.mem_cons, or_assoc]

/-! ### Opening -/

def openAll (src : Name → Res InS) : List Name → Res (List (Name × InS))
  | [] => .ok []
  | n :: ns => src n >>= fun s => openAll src ns >>= fun r => .ok ((n, s) :: r)

theorem openAll_append (src : Name → Res InS) : ∀ a b : List Name,
    openAll src (a ++ b) = openAll src a >>= fun x => openAll src b >>= fun y => .ok (x ++ y) := by
  intro a b
  induction a with
  | nil => simp only [List.nil_append, openAll, Res.ok_bind]; cases openAll src b <;> rfl
  | cons n a ih =>
    simp only [List.cons_append, openAll, ih]
    cases src n with
    | ok s =>
      simp only [Res.ok_bind]
      cases openAll src a with
      | ok x =>
        simp only [Res.ok_bind]
        cases openAll src b <;> rfl
      | raise e => rfl
      | ub => rfl
    | raise e => rfl
    | ub => rfl

theorem openExts_eq (src : Name → Res InS) {si : SI} {name : Name} (hn : si.name = name) (hl : name.length ≤ 60) : ∀ es : List Name, (∀ e ∈ es, e.length = 3) →
    openExts src si es = openAll src (es.map fun e => name ++ 46 :: e) := by
  intro es
  induction es with
  | nil => intro _; rfl
  | cons e es ih =>
    intro he
    rw [openExts, extName_ok hn hl (he e (by simp)), Res.ok_bind, ih (fun x hx => he x (by simp [hx]))]
    rfl

/-- A file of the store. -/
def fromStore (d : Disk) (n : Name) : Res InS := Sis.openInput d n >>= fun c => .ok (isOpen (.fs c))

theorem openNorms_eq (d : Disk) (src : Name → Res InS) {name : Name} (hl : name.length ≤ 60) {size : Nat} {done : List Nat} {si : SI} (h : NewSeg name size done si) (b : Bool)
    (hb : b = false → src = fromStore d) : ∀ i : Nat, i < 2 ^ 31 →
    openNorms d src { si with compound := b } i = openAll src (normNames name done i) := by
  intro i
  induction i with
  | zero => intro _; rfl
  | succ i ih =>
    intro hi
    rw [openNorms, normFileName_spec hl h b (by omega), Res.ok_bind, normNames, ih (by omega)]
    by_cases hm : i ∈ done
    · rw [if_pos hm, if_pos hm]
      dsimp only
      rw [h.all i hm]
      cases b with
      | true => rw [if_pos ⟨rfl, rfl⟩]; rfl
      | false =>
        rw [hb rfl]
        rfl
    · rw [if_neg hm, if_neg hm]

/-- fdt fdx tfx tix tis frq prx. -/
def readExts : List Name := [[102, 100, 116], [102, 100, 120], [116, 102, 120], [116, 105, 120], [116, 105, 115], [102, 114, 113], [112, 114, 120]]

def readNames (name : Name) (done : List Nat) (size : Nat) : List Name := (readExts.map fun e => name ++ 46 :: e) ++ normNames name done size
def packNames (name : Name) (done : List Nat) (size : Nat) : List Name := (packExts.map fun e => name ++ 46 :: e) ++ normNames name done size

theorem perm_names (name : Name) (done : List Nat) (size : Nat) : List.Perm (packNames name done size) (readNames name done size) := by
  have : List.Perm packExts readExts := by decide
  exact (this.map _).append_right _

theorem packNames_distinct {name : Name} (hname : name.length ≤ 60) (done : List Nat) {size : Nat} (hcount : size < 2 ^ 31) :
    (packNames name done size).Pairwise (· ≠ ·) := by
  unfold packNames
  rw [List.pairwise_append]
  refine ⟨?_, normNames_distinct hname _ _ hcount, ?_⟩
  · rw [List.pairwise_map]
    have : packExts.Pairwise (· ≠ ·) := by decide
    refine this.imp ?_
    intro a b hab e
    have := List.append_cancel_left e
    exact hab (List.cons.inj this).2
  · intro a ha b hb e
    obtain ⟨x, -, rfl⟩ := List.mem_map.1 ha
    obtain ⟨f, -, rfl⟩ := mem_normNames hb
    exact ext_ne_nm _ _ _ e

theorem done_lt {name : Name} {size : Nat} {done : List Nat} {si : SI} (h : NewSeg name size done si) : ∀ f ∈ done, f < si.normGens.length := by
  intro f hf
  have := h.all f hf
  apply Classical.byContradiction
  intro hc
  rw [List.getElem?_eq_none (by omega)] at this
  cases this

theorem openSegment_eq (d : Disk) {name : Name} (hl : name.length ≤ 60) {size : Nat} (hs : size < 2 ^ 31) {done : List Nat} {si : SI} (h : NewSeg name size done si) (b : Bool) :
    openSegment d { si with compound := b } =
      if b then cmpdOpen d (name ++ [46, 99, 102, 115]) >>= fun c => openAll (cmpdOpenInput c) (readNames name done size)
      else openAll (fromStore d) (readNames name done size) := by
  have hnn : normNames name done si.normGens.length = normNames name done size := (normNames_more h.len (done_lt h)).symm
  have hlen := h.len
  unfold openSegment source
  cases b with
  | true =>
    simp only [if_true]
    rw [extName_ok (si := { si with compound := true }) h.name hl (by rfl), Res.ok_bind]
    cases hc : cmpdOpen d (name ++ [46, 99, 102, 115]) with
    | raise e => rfl
    | ub => rfl
    | ok c =>
      simp only [Res.ok_bind]
      rw [openExts_eq _ (si := { si with compound := true }) h.name hl _ (by decide), openNorms_eq d (cmpdOpenInput c) hl h true (by simp) _ (by omega), hnn, readNames, openAll_append]
      rfl
  | false =>
    rw [if_neg Bool.false_ne_true, if_neg Bool.false_ne_true, Res.ok_bind, openExts_eq _ (si := { si with compound := false }) h.name hl _ (by decide)]
    have := openNorms_eq d (fromStore d) hl h false (fun _ => rfl) si.normGens.length (by omega)
    rw [readNames, openAll_append, ← hnn, ← this]
    rfl

theorem openAll_ok {src : Name → Res InS} : ∀ {ns : List Name} {r : List (Name × InS)}, openAll src ns = .ok r →
    r.map (·.1) = ns ∧ ∀ p ∈ r, src p.1 = .ok p.2 := by
  intro ns
  induction ns with
  | nil => intro r h; cases h; exact ⟨rfl, by simp⟩
  | cons n ns ih =>
    intro r h
    rw [openAll] at h
    obtain ⟨s, h1, h2⟩ := Res.bind_eq_ok.1 h
    obtain ⟨r', h3, h4⟩ := Res.bind_eq_ok.1 h2
    cases h4
    obtain ⟨h5, h6⟩ := ih h3
    refine ⟨by simp [h5], ?_⟩
    intro p hp
    rcases List.mem_cons.1 hp with e | e
    · rw [e]; exact h1
    · exact h6 p e

theorem openAll_exists {src : Name → Res InS} : ∀ {ns : List Name}, (∀ n ∈ ns, ∃ s, src n = .ok s) → ∃ r, openAll src ns = .ok r := by
  intro ns
  induction ns with
  | nil => intro _; exact ⟨[], rfl⟩
  | cons n ns ih =>
    intro h
    obtain ⟨s, hs⟩ := h n (by simp)
    obtain ⟨r, hr⟩ := ih fun m hm => h m (by simp [hm])
    exact ⟨(n, s) :: r, by rw [openAll, hs, Res.ok_bind, hr, Res.ok_bind]⟩

/-! ### The size of the compound file -/

theorem dirBytes_le : ∀ (ids : List Name) (os : List Nat), (∀ n ∈ ids, n.length < 100) → (dirBytes os ids).length ≤ 120 * ids.length := by
  intro ids
  induction ids with
  | nil => intro os _; cases os <;> simp [dirBytes]
  | cons n ids ih =>
    intro os h
    cases os with
    | nil => simp [dirBytes]
    | cons o os =>
      have h1 := ih os fun m hm => h m (by simp [hm])
      have h2 := h n (by simp)
      have h3 := vbytes_length_le 10 n.length
      have h4 : (beBytes 8 o).length = 8 := rfl
      simp only [dirBytes, List.length_append, List.length_cons, vstring, vint]
      omega

theorem cmpdBytes_le (ids : List Name) (cs : List (List Byte)) (h : ∀ n ∈ ids, n.length < 100) :
    (cmpdBytes ids cs).length ≤ cs.flatten.length + 120 * (ids.length + 1) ∧ cs.flatten.length ≤ (cmpdBytes ids cs).length := by
  have h1 := dirBytes_le ids (dataPos ((vint ids.length).length + (dirBytes (List.replicate ids.length 0) ids).length) cs) h
  have h2 := vbytes_length_le 10 ids.length
  have h3 : (vint ids.length).length ≤ 10 := h2
  unfold cmpdBytes
  simp only [List.length_append]
  omega

theorem sizeOf_perm {d : Disk} {a b : List Name} (h : List.Perm a b) : Spec.sizeOf d a = Spec.sizeOf d b := by
  unfold Spec.sizeOf
  exact (h.map _).sum_nat

theorem sizeOf_flatten (d : Disk) : ∀ ns : List Name, Spec.sizeOf d ns = (ns.map fun n => (d.get n).getD []).flatten.length := by
  intro ns
  induction ns with
  | nil => rfl
  | cons n ns ih =>
    simp only [Spec.sizeOf, List.map_cons, List.sum_cons, List.flatten_cons, List.length_append] at ih ⊢
    omega

theorem get_commitPending (d : Disk) (p : List Name) (n : Name) : (commitPending d p).get n = if n ∈ p then none else d.get n := by
  unfold commitPending Disk.get
  rw [List.find?_filter]
  split
  · rename_i h
    rw [List.find?_eq_none.2]
    · rfl
    · intro x _ hx
      have hx' : x.1 ∉ p ∧ x.1 = n := by simpa using hx
      exact hx'.1 (hx'.2 ▸ h)
  · rename_i h
    congr 1
    apply congrArg (fun q => List.find? q d)
    funext x
    by_cases e : x.1 = n
    · subst e; simp [h]
    · simp [e]

end Ferret.PackSeg
