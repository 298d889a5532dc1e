import Verif.Spec.QueryHeap

/-! Rewriting query objects: what the objects stand for between searches. -/

namespace Ferret.QHeap
open Ferret Ferret.Scorer Ferret.Spec

variable {S L : Type}

/-- The boost of an object. -/
def boostAt (h : Heap S L) (i : Nat) : Option S := (h[i]?).map QObj.boost

/-- The boost of the clause of a boolean query of one clause, between searches. -/
def Kept (X : XArith S) (h : Heap S L) (b ob : S) (c : NQ S L) (j : Nat) : Prop :=
  (X.isOne b = false ∧ c.oneClause = false ∧ c.keeps = true → ob = c.boost ∨ (ob = X.zero ∧ boostAt h j = some c.boost)) ∧
  (¬ (X.isOne b = false ∧ c.oneClause = false ∧ c.keeps = true) → boostAt h j = some c.boost)

mutual
/-- Object `i` and those below it, which are the `F`, are the query, before searches or after some; only the boost of `i`
is left open. -/
inductive Rep (X : XArith S) (h : Heap S L) : NQ S L → Nat → List Nat → Prop
  | leaf {k b b' i} : h[i]? = some (.leaf k b') → Rep X h (.leaf k b) i [i]
  | expands {l b b' i} : h[i]? = some (.expands l b') → Rep X h (.expands l b) i [i]
  | one {b b' ob o c i j F} : h[i]? = some (.bool b' ob [(o, j)]) → o ≠ .mustNot → Rep X h c j F → i ∉ F →
      Kept X h b ob c j → Rep X h (.bool b [(o, c)]) i (i :: F)
  | many {b b' ob cs i js F} : h[i]? = some (.bool b' ob js) → single cs = none → RepL X h cs js F → i ∉ F →
      Rep X h (.bool b cs) i (i :: F)
  | prohibited {b b' ob cs i js a F} : h[i]? = some (.bool b' ob (js ++ [(.must, a)])) → cs ≠ [] →
      cs.all (·.1 = .mustNot) = true → RepL X h cs js F → i ∉ F → a ≠ i → a ∉ F → h[a]? = some (.leaf .all X.one) →
      Rep X h (.bool b cs) i (i :: a :: F)
inductive RepL (X : XArith S) (h : Heap S L) : List (Occur × NQ S L) → List (Occur × Nat) → List Nat → Prop
  | nil : RepL X h [] [] []
  | cons {o c j F cs js F'} : Rep X h c j F → boostAt h j = some c.boost → RepL X h cs js F' → (∀ x ∈ F, x ∉ F') →
      RepL X h ((o, c) :: cs) ((o, j) :: js) (F ++ F')
end

mutual
/-- Object `i` is that query now. -/
inductive Tree (h : Heap S L) : EQuery S L → Nat → List Nat → Prop
  | leaf {k b i} : h[i]? = some (.leaf k b) → Tree h (.leaf k b) i [i]
  | bool {b ob cs i js G} : h[i]? = some (.bool b ob js) → TreeL h cs js G → i ∉ G → Tree h (.bool b cs) i (i :: G)
inductive TreeL (h : Heap S L) : List (Occur × EQuery S L) → List (Occur × Nat) → List Nat → Prop
  | nil : TreeL h [] [] []
  | cons {o c j G cs js G'} : Tree h c j G → TreeL h cs js G' → TreeL h ((o, c) :: cs) ((o, j) :: js) (G ++ G')
end

theorem lt_of_get {h : Heap S L} {i : Nat} {o : QObj S L} (hg : h[i]? = some o) : i < h.length :=
  (List.getElem?_eq_some_iff.1 hg).1

theorem Rep.mem {X : XArith S} {h : Heap S L} {N i F} (hr : Rep X h N i F) : i ∈ F := by
  cases hr <;> simp

theorem Tree.mem {h : Heap S L} {T i G} (hr : Tree h T i G) : i ∈ G := by
  cases hr <;> simp

mutual
theorem Rep.lt {X : XArith S} {h : Heap S L} {N i F} : Rep X h N i F → ∀ x ∈ F, x < h.length
  | .leaf hg => by simpa using lt_of_get hg
  | .expands hg => by simpa using lt_of_get hg
  | .one hg _ hr _ _ => by
    intro x hx
    rcases List.mem_cons.1 hx with rfl | hx
    · exact lt_of_get hg
    · exact Rep.lt hr x hx
  | .many hg _ hr _ => by
    intro x hx
    rcases List.mem_cons.1 hx with rfl | hx
    · exact lt_of_get hg
    · exact RepL.lt hr x hx
  | .prohibited hg _ _ hr _ _ _ ha => by
    intro x hx
    rcases List.mem_cons.1 hx with rfl | hx
    · exact lt_of_get hg
    rcases List.mem_cons.1 hx with rfl | hx
    · exact lt_of_get ha
    · exact RepL.lt hr x hx
theorem RepL.lt {X : XArith S} {h : Heap S L} {cs js F} : RepL X h cs js F → ∀ x ∈ F, x < h.length
  | .nil => by simp
  | .cons hr _ hrs _ => by
    intro x hx
    rcases List.mem_append.1 hx with hx | hx
    · exact Rep.lt hr x hx
    · exact RepL.lt hrs x hx
end

mutual
theorem Tree.lt {h : Heap S L} {T i G} : Tree h T i G → ∀ x ∈ G, x < h.length
  | .leaf hg => by simpa using lt_of_get hg
  | .bool hg hr _ => by
    intro x hx
    rcases List.mem_cons.1 hx with rfl | hx
    · exact lt_of_get hg
    · exact TreeL.lt hr x hx
theorem TreeL.lt {h : Heap S L} {cs js G} : TreeL h cs js G → ∀ x ∈ G, x < h.length
  | .nil => by simp
  | .cons hr hrs => by
    intro x hx
    rcases List.mem_append.1 hx with hx | hx
    · exact Tree.lt hr x hx
    · exact TreeL.lt hrs x hx
end

theorem boostAt_congr {h h' : Heap S L} {i : Nat} (he : h'[i]? = h[i]?) : boostAt h' i = boostAt h i := by
  unfold boostAt; rw [he]

theorem Kept.congr {X : XArith S} {h h' : Heap S L} {b ob c j} (he : boostAt h' j = boostAt h j) (hk : Kept X h b ob c j) :
    Kept X h' b ob c j := by
  unfold Kept; rw [he]; exact hk

mutual
theorem Rep.frame {X : XArith S} {h h' : Heap S L} {N i F} : Rep X h N i F → (∀ x ∈ F, h'[x]? = h[x]?) → Rep X h' N i F
  | .leaf hg, hf => .leaf (by rw [hf _ (by simp)]; exact hg)
  | .expands hg, hf => .expands (by rw [hf _ (by simp)]; exact hg)
  | .one hg ho hr hi hk, hf =>
    .one (by rw [hf _ (by simp)]; exact hg) ho (Rep.frame hr fun x hx => hf x (by simp [hx])) hi
      (hk.congr (boostAt_congr (hf _ (List.mem_cons_of_mem _ hr.mem))))
  | .many hg ho hr hi, hf =>
    .many (by rw [hf _ (by simp)]; exact hg) ho (RepL.frame hr fun x hx => hf x (by simp [hx])) hi
  | .prohibited hg h1 h2 hr hi hai haF ha, hf =>
    .prohibited (by rw [hf _ (by simp)]; exact hg) h1 h2 (RepL.frame hr fun x hx => hf x (by simp [hx])) hi hai haF
      (by rw [hf _ (by simp)]; exact ha)
theorem RepL.frame {X : XArith S} {h h' : Heap S L} {cs js F} : RepL X h cs js F → (∀ x ∈ F, h'[x]? = h[x]?) → RepL X h' cs js F
  | .nil, _ => .nil
  | .cons hr hb hrs hd, hf =>
    .cons (Rep.frame hr fun x hx => hf x (by simp [hx])) (by rw [boostAt_congr (hf _ (by simp [hr.mem]))]; exact hb)
      (RepL.frame hrs fun x hx => hf x (by simp [hx])) hd
end

mutual
theorem Tree.frame {h h' : Heap S L} {T i G} : Tree h T i G → (∀ x ∈ G, h'[x]? = h[x]?) → Tree h' T i G
  | .leaf hg, hf => .leaf (by rw [hf _ (by simp)]; exact hg)
  | .bool hg hr hi, hf => .bool (by rw [hf _ (by simp)]; exact hg) (TreeL.frame hr fun x hx => hf x (by simp [hx])) hi
theorem TreeL.frame {h h' : Heap S L} {cs js G} : TreeL h cs js G → (∀ x ∈ G, h'[x]? = h[x]?) → TreeL h' cs js G
  | .nil, _ => .nil
  | .cons hr hrs, hf => .cons (Tree.frame hr fun x hx => hf x (by simp [hx])) (TreeL.frame hrs fun x hx => hf x (by simp [hx]))
end

theorem get_set_ne {h : Heap S L} {i x : Nat} {o : QObj S L} (hx : x ≠ i) : (h.set i o)[x]? = h[x]? := by
  rw [List.getElem?_set]; simp [Ne.symm hx]

theorem get_set_self {h : Heap S L} {i : Nat} {o : QObj S L} (hi : i < h.length) : (h.set i o)[i]? = some o := by
  rw [List.getElem?_set]; simp [hi]

theorem get_app_lt {h : Heap S L} {x : Nat} {l : List (QObj S L)} (hx : x < h.length) : (h ++ l)[x]? = h[x]? :=
  List.getElem?_append_left hx

theorem get_app_new {h : Heap S L} {o : QObj S L} : (h ++ [o])[h.length]? = some o := by simp

/-- The boost of the root is left open. -/
theorem Rep.reboost {X : XArith S} {h : Heap S L} {N i F o} (x : S) (hr : Rep X h N i F) (hg : h[i]? = some o) :
    Rep X (h.set i (o.withBoost x)) N i F := by
  have hi := lt_of_get hg
  have hset : (h.set i (o.withBoost x))[i]? = some (o.withBoost x) := get_set_self hi
  cases hr with
  | leaf h1 => rw [h1] at hg; cases hg; exact .leaf (b' := x) hset
  | expands h1 => rw [h1] at hg; cases hg; exact .expands (b' := x) hset
  | one h1 ho hr hn hk =>
    rw [h1] at hg; cases hg
    exact .one (b' := x) hset ho (hr.frame fun y hy => get_set_ne (fun e => hn (e ▸ hy))) hn
      (hk.congr (boostAt_congr (get_set_ne (fun e => hn (e ▸ hr.mem)))))
  | many h1 hs hr hn =>
    rw [h1] at hg; cases hg
    exact .many (b' := x) hset hs (hr.frame fun y hy => get_set_ne (fun e => hn (e ▸ hy))) hn
  | prohibited h1 h2 h3 hr hn hai haF ha =>
    rw [h1] at hg; cases hg
    exact .prohibited (b' := x) hset h2 h3 (hr.frame fun y hy => get_set_ne (fun e => hn (e ▸ hy))) hn hai haF
      (by rw [get_set_ne hai]; exact ha)

/-- A query with another boost. -/
def NQ.withBoost (x : S) : NQ S L → NQ S L
  | .leaf k _ => .leaf k x
  | .expands l _ => .expands l x
  | .bool _ cs => .bool x cs

def EQuery.withBoost (x : S) : EQuery S L → EQuery S L
  | .leaf k _ => .leaf k x
  | .bool _ cs => .bool x cs

def EQuery.boost : EQuery S L → S
  | .leaf _ b => b
  | .bool b _ => b

theorem boostAsk_eq (X : XArith S) (b : S) (T : EQuery S L) : boostAsk X b T = EQuery.withBoost (X.mul (EQuery.boost T) b) T := by
  cases T <;> rfl

theorem Rep.nominal {X : XArith S} {h : Heap S L} {N i F} (x : S) (h1 : N.oneClause = false) (hr : Rep X h N i F) :
    Rep X h (NQ.withBoost x N) i F := by
  cases hr with
  | leaf h => exact .leaf h
  | expands h => exact .expands h
  | one h ho _ _ _ => simp [NQ.oneClause, single, ho] at h1
  | many h2 hs hr hn => exact .many h2 hs hr hn
  | prohibited h2 h3 h4 hr hn hai haF ha => exact .prohibited h2 h3 h4 hr hn hai haF ha

theorem Tree.reboost {h : Heap S L} {T i G o} (x : S) (hr : Tree h T i G) (hg : h[i]? = some o) :
    Tree (h.set i (o.withBoost x)) (EQuery.withBoost x T) i G := by
  have hi := lt_of_get hg
  have hset : (h.set i (o.withBoost x))[i]? = some (o.withBoost x) := get_set_self hi
  cases hr with
  | leaf h1 => rw [h1] at hg; cases hg; exact .leaf hset
  | bool h1 hr hn =>
    rw [h1] at hg; cases hg
    exact .bool hset (hr.frame fun y hy => get_set_ne (fun e => hn (e ▸ hy))) hn

theorem Tree.boost {h : Heap S L} {T i G} (hr : Tree h T i G) : boostAt h i = some (EQuery.boost T) := by
  cases hr with
  | leaf h1 => simp [boostAt, h1, QObj.boost, EQuery.boost]
  | bool h1 _ _ => simp [boostAt, h1, QObj.boost, EQuery.boost]

/-! ### The shape of clauses -/

theorem single_map {α β : Type} (f : α → β) (cs : List (Occur × α)) :
    single (cs.map fun c => (c.1, f c.2)) = (single cs).map f := by
  rcases cs with _ | ⟨⟨o, a⟩, _ | ⟨c, cs⟩⟩
  · rfl
  · by_cases ho : o = .mustNot <;> simp [single, ho]
  · rfl

theorem single_eq_some {α : Type} {cs : List (Occur × α)} {a : α} (h : single cs = some a) : ∃ o, o ≠ .mustNot ∧ cs = [(o, a)] := by
  rcases cs with _ | ⟨⟨o, b⟩, _ | ⟨c, cs⟩⟩
  · simp [single] at h
  · by_cases ho : o = .mustNot
    · simp [single, ho] at h
    · simp [single, ho] at h
      exact ⟨o, ho, by rw [h]⟩
  · simp [single] at h

theorem askedL_eq (X : XArith S) (expand : L → S → Kind L × S) (cs : List (Occur × NQ S L)) :
    NQ.askedL X expand cs = cs.map fun c => (c.1, NQ.asked X expand c.2) := by
  induction cs with
  | nil => simp [NQ.askedL]
  | cons c cs ih => obtain ⟨o, q⟩ := c; simp [NQ.askedL, ih]

theorem keepsL_eq (cs : List (Occur × NQ S L)) : NQ.keepsL cs = cs.map fun c => (c.1, NQ.keeps c.2) := by
  induction cs with
  | nil => simp [NQ.keepsL]
  | cons c cs ih => obtain ⟨o, q⟩ := c; simp [NQ.keepsL, ih]

theorem resetsL_eq (X : XArith S) (b : S) (cs : List (Occur × NQ S L)) :
    NQ.resetsL X b cs = cs.map fun c => (c.1, if c.2.oneClause then NQ.resets X c.2 else !X.isOne b || !c.2.keeps) := by
  induction cs with
  | nil => simp [NQ.resetsL]
  | cons c cs ih => obtain ⟨o, q⟩ := c; simp [NQ.resetsL, ih]

theorem keeps_bool {b : S} {cs : List (Occur × NQ S L)} (h : single cs = none) :
    NQ.keeps (.bool b cs) = cs.all fun c => NQ.keeps c.2 := by
  rw [NQ.keeps, keepsL_eq, single_map, h]
  simp [Function.comp_def]

theorem keeps_one {b : S} {o : Occur} {c : NQ S L} (ho : o ≠ .mustNot) : NQ.keeps (.bool b [(o, c)]) = false := by
  rw [NQ.keeps, keepsL_eq]
  simp [single, ho]

theorem keeps_oneClause {N : NQ S L} (h : N.keeps = true) : N.oneClause = false := by
  cases N with
  | leaf => rfl
  | expands => rfl
  | bool b cs =>
    rw [NQ.keeps, keepsL_eq, single_map] at h
    simp only [NQ.oneClause]
    cases hs : single cs with
    | none => rfl
    | some q => rw [hs] at h; simp at h

theorem resets_one (X : XArith S) {b : S} {o : Occur} {c : NQ S L} (ho : o ≠ .mustNot) :
    NQ.resets X (.bool b [(o, c)]) = if c.oneClause then NQ.resets X c else !X.isOne b || !c.keeps := by
  rw [NQ.resets, resetsL_eq]
  simp [single, ho]

theorem resets_many (X : XArith S) {N : NQ S L} (h : N.oneClause = false) : NQ.resets X N = true := by
  cases N with
  | leaf => rw [NQ.resets]
  | expands => rw [NQ.resets]
  | bool b cs =>
    rw [NQ.resets, resetsL_eq, single_map (fun q : NQ S L => if q.oneClause then NQ.resets X q else !X.isOne b || !q.keeps)]
    simp only [NQ.oneClause] at h
    cases hs : single cs with
    | none => rfl
    | some q => rw [hs] at h; simp at h

theorem asked_one (X : XArith S) (expand : L → S → Kind L × S) {b : S} {o : Occur} {c : NQ S L} (ho : o ≠ .mustNot) :
    NQ.asked X expand (.bool b [(o, c)]) = boostAsk X b (NQ.asked X expand c) := by
  rw [NQ.asked, askedL_eq, boolAsk]
  simp [single, ho]

theorem asked_many (X : XArith S) (expand : L → S → Kind L × S) {b : S} {cs : List (Occur × NQ S L)} (h : single cs = none) :
    NQ.asked X expand (.bool b cs) =
      .bool b (NQ.askedL X expand cs ++ if !cs.isEmpty && cs.all (·.1 = .mustNot) then [(.must, .leaf .all X.one)] else []) := by
  rw [NQ.asked, boolAsk, askedL_eq, single_map, h]
  simp only [Option.map_none, List.isEmpty_map, List.all_map, Function.comp_def]
  split <;> simp

theorem withBoost_steady (X : XArith S) {N : NQ S L} (x : S) (h : N.oneClause = false) :
    NQ.steady X (NQ.withBoost x N) = NQ.steady X N := by
  cases N with
  | leaf => rfl
  | expands => simp [NQ.withBoost, NQ.steady]
  | bool b cs =>
    rw [NQ.withBoost, NQ.steady, NQ.steady, resets_many X (N := .bool x cs) h, resets_many X h]
    simp

theorem withBoost_keeps {N : NQ S L} (x : S) : NQ.keeps (NQ.withBoost x N) = NQ.keeps N := by
  cases N <;> simp [NQ.withBoost, NQ.keeps]

theorem withBoost_height {N : NQ S L} (x : S) : NQ.height (NQ.withBoost x N) = NQ.height N := by
  cases N <;> simp [NQ.withBoost, NQ.height]

theorem withBoost_oneClause {N : NQ S L} (x : S) : NQ.oneClause (NQ.withBoost x N) = NQ.oneClause N := by
  cases N <;> rfl

theorem withBoost_asked (X : XArith S) (expand : L → S → Kind L × S) {N : NQ S L} (x : S) (h : N.keeps = true) :
    NQ.asked X expand (NQ.withBoost x N) = EQuery.withBoost x (NQ.asked X expand N) ∧
    EQuery.boost (NQ.asked X expand N) = N.boost := by
  have h1 := keeps_oneClause h
  cases N with
  | leaf => simp [NQ.withBoost, NQ.asked, EQuery.withBoost, EQuery.boost, NQ.boost]
  | expands => simp [NQ.keeps] at h
  | bool b cs =>
    have hs : single cs = none := by simpa [NQ.oneClause] using h1
    rw [NQ.withBoost, asked_many X expand hs, asked_many X expand hs]
    exact ⟨rfl, rfl⟩

theorem withBoost_withBoost {N : NQ S L} (x y : S) : NQ.withBoost x (NQ.withBoost y N) = NQ.withBoost x N := by
  cases N <;> rfl

theorem withBoost_boost (N : NQ S L) : NQ.withBoost N.boost N = N := by
  cases N <;> rfl

end Ferret.QHeap
