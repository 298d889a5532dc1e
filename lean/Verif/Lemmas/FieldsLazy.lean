import Verif.Lemmas.Fields
import Verif.Spec.Stored

namespace Ferret.Fields
open Ferret Ferret.Spec Ferret.Fis Ferret.Expand Ferret.Dict

theorem joined_one (d : List Byte) : joined [d] = d := by simp [joined, List.intercalate]

theorem joined_cons (d e : List Byte) (ds : List (List Byte)) : joined (d :: e :: ds) = d ++ (32 :: joined (e :: ds)) := by
  simp [joined, List.intercalate]

theorem joined_pieces : ∀ (ds : List (List Byte)), ds ≠ [] → (ds.map (· ++ [(32 : Byte)])).flatten = joined ds ++ [32] := by
  intro ds
  induction ds with
  | nil => intro h; exact absurd rfl h
  | cons d ds ih =>
    intro _
    cases ds with
    | nil => simp [joined_one]
    | cons e ds =>
      rw [joined_cons, List.map_cons, List.flatten_cons, ih (by simp)]
      simp

theorem joined_length : ∀ (ds : List (List Byte)), ds ≠ [] → (joined ds).length + 1 = (ds.map (fun d => d.length + 1)).sum := by
  intro ds
  induction ds with
  | nil => intro h; exact absurd rfl h
  | cons d ds ih =>
    intro _
    cases ds with
    | nil => simp [joined_one]
    | cons e ds =>
      rw [joined_cons]
      have := ih (by simp)
      simp only [List.map_cons, List.sum_cons, List.length_append, List.length_cons] at this ⊢
      omega

/-- Loaded data. -/
def Loaded : List LazyData → List (List Byte) → Prop
  | [], [] => True
  | l :: ls, d :: ds => l.text = some d ∧ l.length = d.length ∧ Loaded ls ds
  | _, _ => False

theorem loaded_of_index : ∀ (ls : List LazyData) (ds : List (List Byte)), ls.length = ds.length →
    (∀ (i : Nat) (d : List Byte) (l : LazyData), ds[i]? = some d → ls[i]? = some l → l.text = some d ∧ l.length = d.length) →
    Loaded ls ds := by
  intro ls
  induction ls with
  | nil =>
    intro ds h _
    cases ds with
    | nil => trivial
    | cons => simp at h
  | cons l ls ih =>
    intro ds h hi
    cases ds with
    | nil => simp at h
    | cons d ds =>
      obtain ⟨h1, h2⟩ := hi 0 d l (by simp) (by simp)
      exact ⟨h1, h2, ih ds (by simpa using h) (fun i d' l' a b => hi (i + 1) d' l' (by simpa using a) (by simpa using b))⟩

/-- Copying from a place within or before the data. -/
theorem lazyCopy_inside (start : Nat) : ∀ (ls : List LazyData) (ds : List (List Byte)) (cur len : Nat), Loaded ls ds →
    start < cur → 0 < len → len ≤ (joined ds).length → lazyCopy start ls cur len = .ok ((joined ds).take len) := by
  intro ls
  induction ls with
  | nil =>
    intro ds cur len h _ h0 hl
    cases ds with
    | nil => simp [joined, List.intercalate] at hl; omega
    | cons => exact h.elim
  | cons l ls ih =>
    intro ds cur len h hs h0 hl
    cases ds with
    | nil => exact h.elim
    | cons d ds =>
      obtain ⟨ht, hlen, hrest⟩ := h
      simp only [lazyCopy, hlen, ht, Res.ofOption, Res.ok_bind]
      rw [if_pos (by omega)]
      have hcs : (if start > cur then start - cur else 0) = 0 := if_neg (by omega)
      rw [hcs]
      simp only [List.drop_zero, Nat.sub_zero, Nat.add_sub_cancel_left]
      cases ds with
      | nil =>
        rw [joined_one] at hl ⊢
        rw [if_pos hl]
      | cons e ds =>
        rw [joined_cons] at hl ⊢
        by_cases hc : len ≤ d.length
        · rw [if_pos hc, List.take_append_of_le_length hc]
        · rw [if_neg hc]
          simp only [List.length_append, List.length_cons] at hl
          by_cases h1 : len - d.length - 1 = 0
          · rw [if_pos h1]
            have : len = d.length + 1 := by omega
            subst this
            rw [List.take_length_add_append]
            simp
          · rw [if_neg h1, ih (e :: ds) _ _ hrest (by omega) (by omega) (by omega), Res.ok_bind]
            have : len = d.length + (1 + (len - d.length - 1)) := by omega
            conv => rhs; rw [this, List.take_length_add_append, Nat.add_comm 1, List.take_succ_cons]
            simp

/-- Copying from a place that is not a separator. -/
theorem lazyCopy_spec (start : Nat) : ∀ (ls : List LazyData) (ds : List (List Byte)) (cur len : Nat), Loaded ls ds →
    cur ≤ start → onSeparator ds (start - cur) = false → 0 < len → start - cur + len ≤ (joined ds).length →
    lazyCopy start ls cur len = .ok (((joined ds).drop (start - cur)).take len) := by
  intro ls
  induction ls with
  | nil =>
    intro ds cur len h _ _ h0 hl
    cases ds with
    | nil => simp [joined, List.intercalate] at hl; omega
    | cons => exact h.elim
  | cons l ls ih =>
    intro ds cur len h hs hsep h0 hl
    cases ds with
    | nil => exact h.elim
    | cons d ds =>
      obtain ⟨ht, hlen, hrest⟩ := h
      simp only [lazyCopy, hlen, ht, Res.ofOption, Res.ok_bind]
      by_cases hin : start < cur + d.length
      · rw [if_pos hin]
        have hcs : (if start > cur then start - cur else 0) = start - cur := by split <;> omega
        rw [hcs]
        have hcl : cur + d.length - cur - (start - cur) = d.length - (start - cur) := by omega
        rw [hcl]
        have htk : (d.drop (start - cur)).take (d.length - (start - cur)) = d.drop (start - cur) :=
          List.take_of_length_le (l := d.drop (start - cur)) (by simp)
        rw [htk]
        have hdl : (d.drop (start - cur)).length = d.length - (start - cur) := by simp
        have hdrop : ∀ x : List Byte, (d ++ x).drop (start - cur) = d.drop (start - cur) ++ x :=
          fun x => List.drop_append_of_le_length (by omega)
        cases ds with
        | nil =>
          rw [joined_one] at hl ⊢
          rw [if_pos (by omega)]
        | cons e ds =>
          rw [joined_cons] at hl ⊢
          rw [hdrop]
          by_cases hc : len ≤ d.length - (start - cur)
          · rw [if_pos hc, List.take_append_of_le_length (by omega)]
          · rw [if_neg hc]
            simp only [List.length_append, List.length_cons] at hl
            by_cases h1 : len - (d.length - (start - cur)) - 1 = 0
            · rw [if_pos h1]
              have : len = (d.drop (start - cur)).length + 1 := by omega
              rw [this, List.take_length_add_append]
              simp
            · rw [if_neg h1, lazyCopy_inside start ls (e :: ds) _ _ hrest (by omega) (by omega) (by omega), Res.ok_bind]
              have : len = (d.drop (start - cur)).length + (1 + (len - (d.length - (start - cur)) - 1)) := by omega
              conv => rhs; rw [this, List.take_length_add_append, Nat.add_comm 1, List.take_succ_cons]
              simp
      · rw [if_neg hin]
        simp only [onSeparator] at hsep
        rw [if_neg (by omega)] at hsep
        split at hsep
        · cases hsep
        · rename_i hne
          cases ds with
          | nil => rw [joined_one] at hl; omega
          | cons e ds =>
            rw [joined_cons] at hl ⊢
            simp only [List.length_append, List.length_cons] at hl
            have e1 : start - cur = d.length + (1 + (start - (cur + d.length + 1))) := by omega
            rw [ih (e :: ds) _ _ hrest (by omega) (by rw [← hsep]; congr 1; omega) h0 (by omega)]
            rw [e1, List.drop_length_add_append, Nat.add_comm 1, List.drop_succ_cons]

/-! ### The calls -/

/-- Loading one datum. -/
theorem lazyGetData_spec {Z : Zip} (hZ : Lawful Z) {fdt : List Byte} {s : FI × DocF} (hs : GoodField Z s.1 s.2) {f : LazyF}
    (h : LInv Z fdt s f) (i : Int) :
    ∃ f', lazyGetData Z fdt f i = .ok (f', if 0 ≤ i then s.2.data[i.toNat]? else none) ∧ LInv Z fdt s f' ∧
      f'.len = f.len ∧ f'.compressed = f.compressed ∧
      (∀ (j : Nat) (d : List Byte) (ld : LazyData), s.2.data[j]? = some d → f'.data[j]? = some ld →
        (j = i.toNat ∧ 0 ≤ i) ∨ (∃ l0, f.data[j]? = some l0 ∧ l0.text = some d) → ld.text = some d ∧ ld.length = d.length) := by
  unfold lazyGetData
  by_cases hi : i < f.data.length ∧ i ≥ 0
  · rw [if_pos hi, if_pos hi.2]
    have hlt : i.toNat < f.data.length := by omega
    have hlt' : i.toNat < s.2.data.length := by rw [← h.size]; exact hlt
    obtain ⟨ld, hld⟩ : ∃ ld, f.data[i.toNat]? = some ld := ⟨_, List.getElem?_eq_getElem hlt⟩
    obtain ⟨d, hd⟩ : ∃ d, s.2.data[i.toNat]? = some d := ⟨_, List.getElem?_eq_getElem hlt'⟩
    have hmem : d ∈ s.2.data := List.mem_of_getElem? hd
    rw [hld, hd, Res.ofOption, Res.ok_bind]
    -- the new state after loading
    have key : ∀ (x : LazyData), x.text = some d → x.length = d.length → x.start = ld.start →
        LInv Z fdt s { f with data := f.data.set i.toNat x } ∧
        (∀ (j : Nat) (d' : List Byte) (ld' : LazyData), s.2.data[j]? = some d' → (f.data.set i.toNat x)[j]? = some ld' →
          (j = i.toNat ∧ 0 ≤ i) ∨ (∃ l0, f.data[j]? = some l0 ∧ l0.text = some d') → ld'.text = some d' ∧ ld'.length = d'.length) := by
      intro x hx1 hx2 hx3
      have old : ∀ (j : Nat) (d' : List Byte) (ld' : LazyData), s.2.data[j]? = some d' → (f.data.set i.toNat x)[j]? = some ld' →
          (ld'.text = some d' ∧ ld'.length = d'.length) ∨ (j ≠ i.toNat ∧ f.data[j]? = some ld') := by
        intro j d' ld' hj hl
        rw [List.getElem?_set] at hl
        split at hl
        · rename_i e
          subst e
          cases hl
          rw [hd] at hj
          cases hj
          exact .inl ⟨hx1, hx2⟩
        · rename_i e
          exact .inr ⟨fun h => e h.symm, hl⟩
      refine ⟨⟨h.name, by simp [h.size], ?_, ?_, ?_⟩, ?_⟩
      · intro j d' ld' hj hl
        rcases old j d' ld' hj hl with h1 | ⟨_, h1⟩
        · exact .inr h1
        · exact h.each j d' ld' hj h1
      · intro hc
        obtain ⟨a, b, c⟩ := h.plain hc
        refine ⟨a, b, ?_⟩
        intro ld' hl
        change (f.data.set i.toNat x)[0]? = some ld' at hl
        rw [List.getElem?_set] at hl
        split at hl
        · rename_i e
          cases hl
          rw [hx3]
          exact c ld (by rw [← hld, e])
        · exact c ld' hl
      · intro hc
        rcases h.packed hc with a | ⟨a, b, c⟩
        · exact .inl a
        · refine .inr ⟨a, b, ?_⟩
          intro j d' ld' hj hl
          rcases old j d' ld' hj hl with h1 | ⟨_, h1⟩
          · exact h1
          · exact c j d' ld' hj h1
      · intro j d' ld' hj hl hor
        rcases old j d' ld' hj hl with h1 | ⟨hne, h1⟩
        · exact h1
        · rcases hor with ⟨e, _⟩ | ⟨l0, e1, e2⟩
          · exact absurd e hne
          · rw [h1] at e1
            cases e1
            rcases h.each j d' ld' hj h1 with ⟨e3, _⟩ | e3
            · rw [e2] at e3; cases e3
            · exact e3
    rcases h.each i.toNat d ld hd hld with ⟨ht, hlen, r, hr⟩ | ⟨ht, hlen⟩
    · rw [ht]
      dsimp only
      have hl := piece_length hZ s.1 d
      have hgd := hs.2 d hmem
      cases hc : isCompressed s.1 with
      | true =>
        have e : piece Z s.1 d = Z.zip d := by unfold piece; rw [if_pos hc]
        have hcf : f.compressed ≠ 0 := by rcases h.packed hc with a | ⟨a, _⟩ <;> omega
        rw [if_pos hcf]
        unfold GoodData at hgd
        rw [if_pos hc] at hgd
        rw [hlen, show (piece Z s.1 d).length - 1 + 1 = (piece Z s.1 d).length by omega, hr, e]
        unfold readZipped
        have hrb : rdBytes (Z.zip d).length (Z.zip d ++ r) = .ok (Z.zip d, r) := rdBytes_append _ _
        rw [if_neg (by omega), hrb, Res.ok_bind]
        simp only [(hZ d).1]
        rw [if_pos hgd.1, Res.ok_bind]
        obtain ⟨k1, k2⟩ := key ⟨ld.start, d.length, some d⟩ rfl rfl rfl
        exact ⟨_, rfl, k1, rfl, rfl, k2⟩
      | false =>
        have e : piece Z s.1 d = d ++ [32] := by unfold piece; rw [hc]; rfl
        obtain ⟨hcf, _, _⟩ := h.plain hc
        rw [if_neg (by simp [hcf]), hlen, show (piece Z s.1 d).length - 1 + 1 = (piece Z s.1 d).length by omega, hr]
        have hrb : rdBytes (piece Z s.1 d).length (piece Z s.1 d ++ r) = .ok (piece Z s.1 d, r) := rdBytes_append _ _
        rw [hrb, Res.ok_bind]
        have e2 : (piece Z s.1 d).take ((piece Z s.1 d).length - 1) = d := by rw [e]; simp
        have e3 : (piece Z s.1 d).length - 1 = d.length := by rw [e]; simp
        dsimp only
        rw [e2]
        obtain ⟨k1, k2⟩ := key ⟨ld.start, (piece Z s.1 d).length - 1, some d⟩ rfl e3 rfl
        exact ⟨_, rfl, k1, rfl, rfl, k2⟩
    · rw [ht]
      refine ⟨f, rfl, h, rfl, rfl, ?_⟩
      intro j d' ld' hj hl hor
      rcases hor with ⟨e, _⟩ | ⟨l0, e1, e2⟩
      · subst e
        rw [hld] at hl
        rw [hd] at hj
        cases hl
        cases hj
        exact ⟨ht, hlen⟩
      · rw [hl] at e1
        cases e1
        rcases h.each j d' ld' hj hl with ⟨e3, _⟩ | e3
        · rw [e2] at e3; cases e3
        · exact e3
  · rw [if_neg hi]
    refine ⟨f, ?_, h, rfl, rfl, ?_⟩
    · by_cases h0 : 0 ≤ i
      · rw [if_pos h0, List.getElem?_eq_none]
        rw [← h.size]
        omega
      · rw [if_neg h0]
    · intro j d' ld' hj hl hor
      rcases hor with ⟨e, h0⟩ | ⟨l0, e1, e2⟩
      · subst e
        rw [List.getElem?_eq_some_iff] at hl
        obtain ⟨hl, _⟩ := hl
        omega
      · rw [hl] at e1
        cases e1
        rcases h.each j d' ld' hj hl with ⟨e3, _⟩ | e3
        · rw [e2] at e3; cases e3
        · exact e3

theorem sum_take_succ (l : List Nat) (n : Nat) (x : Nat) (h : l[n]? = some x) : (l.take (n + 1)).sum = (l.take n).sum + x := by
  rw [List.take_add_one, h]
  simp

/-- Loading all data below `n`. -/
theorem lazyLoad_spec {Z : Zip} (hZ : Lawful Z) {fdt : List Byte} {s : FI × DocF} (hs : GoodField Z s.1 s.2) :
    ∀ (n : Nat) (f : LazyF) (acc : Int), LInv Z fdt s f → n ≤ s.2.data.length →
    ∃ f', lazyLoad Z fdt n f acc = .ok (f', acc + (((s.2.data.map (fun d => d.length + 1)).take n).sum : Nat)) ∧ LInv Z fdt s f' ∧
      (∀ (j : Nat) (d : List Byte) (ld : LazyData), s.2.data[j]? = some d → f'.data[j]? = some ld →
        j < n ∨ (∃ l0, f.data[j]? = some l0 ∧ l0.text = some d) → ld.text = some d ∧ ld.length = d.length) := by
  intro n
  induction n with
  | zero =>
    intro f acc h _
    refine ⟨f, by simp [lazyLoad], h, ?_⟩
    intro j d ld hj hl hor
    rcases hor with e | ⟨l0, e1, e2⟩
    · omega
    · rw [hl] at e1
      cases e1
      rcases h.each j d ld hj hl with ⟨e3, _⟩ | e3
      · rw [e2] at e3; cases e3
      · exact e3
  | succ n ih =>
    intro f acc h hn
    obtain ⟨f1, e1, h1, _, _, h2⟩ := lazyGetData_spec hZ hs h (n : Int)
    simp only [lazyLoad, e1, Res.ok_bind]
    have hlt : n < f1.data.length := by rw [h1.size]; omega
    obtain ⟨ld, hld⟩ : ∃ ld, f1.data[n]? = some ld := ⟨_, List.getElem?_eq_getElem hlt⟩
    obtain ⟨d, hd⟩ : ∃ d, s.2.data[n]? = some d := ⟨_, List.getElem?_eq_getElem (by omega)⟩
    obtain ⟨ht, hl⟩ := h2 n d ld hd hld (.inl ⟨by simp, by omega⟩)
    simp only [hld, Res.ofOption, Res.ok_bind]
    obtain ⟨f2, e2, h3, h4⟩ := ih f1 (acc + ld.length + 1) h1 (by omega)
    refine ⟨f2, ?_, h3, ?_⟩
    · rw [e2, hl, sum_take_succ _ n (d.length + 1) (by simp [hd])]
      congr 2
      omega
    · intro j d' ld' hj hl' hor
      have hj' : j < f1.data.length := by
        rw [h1.size]
        rw [List.getElem?_eq_some_iff] at hj
        exact hj.1
      obtain ⟨l1, hl1⟩ : ∃ l1, f1.data[j]? = some l1 := ⟨_, List.getElem?_eq_getElem hj'⟩
      apply h4 j d' ld' hj hl'
      rcases hor with e | e
      · by_cases hjn : j = n
        · subst hjn
          exact .inr ⟨l1, hl1, (h2 j d' l1 hj hl1 (.inl ⟨by simp, by omega⟩)).1⟩
        · exact .inl (by omega)
      · exact .inr ⟨l1, hl1, (h2 j d' l1 hj hl1 (.inr e)).1⟩

theorem lazyGetBytes_spec {Z : Zip} (hZ : Lawful Z) {fdt : List Byte} {s : FI × DocF} (hs : GoodField Z s.1 s.2) {f : LazyF}
    (h : LInv Z fdt s f) (start len : Int) (hsum : start + len < 2 ^ 31)
    (hsep : isCompressed s.1 = true → onSeparator s.2.data start.toNat = false) :
    ∃ f', lazyGetBytes Z fdt f start len = .ok (f', bytesOf s.2.data start len) ∧ LInv Z fdt s f' := by
  have prep : ∃ f', lazyPrep Z fdt f = .ok f' ∧ LInv Z fdt s f' ∧
      (isCompressed s.1 = true → f'.compressed = 2 ∧
        f'.len = (((s.2.data.map (fun d => d.length + 1)).sum : Nat) : Int) - 1 ∧ Loaded f'.data s.2.data) := by
    unfold lazyPrep
    cases hc : isCompressed s.1 with
    | false =>
      obtain ⟨a, _, _⟩ := h.plain hc
      rw [if_neg (by omega)]
      exact ⟨f, rfl, h, fun e => nomatch e⟩
    | true =>
      by_cases h1 : f.compressed = 1
      · rw [if_pos h1]
        obtain ⟨f1, e1, i1, l1⟩ := lazyLoad_spec hZ hs f.data.length f 0 h (by rw [h.size]; omega)
        have hall : ∀ (j : Nat) (d : List Byte) (ld : LazyData), s.2.data[j]? = some d → f1.data[j]? = some ld →
            ld.text = some d ∧ ld.length = d.length := by
          intro j d ld hj hl
          refine l1 j d ld hj hl (.inl ?_)
          rw [h.size]
          rw [List.getElem?_eq_some_iff] at hj
          exact hj.1
        rw [e1, Res.ok_bind]
        dsimp only
        rw [h.size, List.take_of_length_le (l := s.2.data.map _) (by simp), Int.zero_add]
        refine ⟨_, rfl, ⟨i1.name, i1.size, i1.each, ?_, ?_⟩, ?_⟩
        · intro e; rw [hc] at e; cases e
        · exact fun _ => .inr ⟨rfl, rfl, hall⟩
        · exact fun _ => ⟨rfl, rfl, loaded_of_index _ _ i1.size hall⟩
      · rw [if_neg h1]
        rcases h.packed hc with a | ⟨a, b, c⟩
        · exact absurd a h1
        · exact ⟨f, rfl, h, fun _ => ⟨a, b, loaded_of_index _ _ h.size c⟩⟩
  obtain ⟨f', e, hi, hp⟩ := prep
  unfold lazyGetBytes
  rw [e, Res.ok_bind]
  refine ⟨f', ?_, hi⟩
  congr 2
  unfold lazyRead bytesOf
  have hlen : f'.len = if s.2.data = [] then -1 else ((joined s.2.data).length : Int) := by
    have e1 : f'.len = (((s.2.data.map (fun d => d.length + 1)).sum : Nat) : Int) - 1 := by
      cases hc : isCompressed s.1 with
      | true => exact (hp hc).2.1
      | false =>
        rw [(hi.plain hc).2.1]
        congr 2
        have hpe : piece Z s.1 = fun d => d ++ [32] := by funext d; unfold piece; rw [hc]; rfl
        simp [bodyOf, List.length_flatten, hpe, Function.comp_def]
    rw [e1]
    split
    · rename_i e; rw [e]; rfl
    · rename_i e
      have := joined_length _ e
      omega
  by_cases hemp : s.2.data = []
  · rw [hlen, if_pos hemp]
    have : joined s.2.data = [] := by rw [hemp]; rfl
    rw [this]
    rw [if_pos (by omega), if_neg (by simp; omega)]
  · rw [hlen, if_neg hemp]
    by_cases h1 : start < 0 ∨ start ≥ (joined s.2.data).length
    · rw [if_pos h1, if_neg (by omega)]
    · rw [if_neg h1]
      by_cases h2 : len ≤ 0
      · rw [if_pos h2, if_neg (by omega)]
      · rw [if_neg h2, if_neg (by omega)]
        by_cases h3 : start + len > (joined s.2.data).length
        · rw [if_pos h3, if_neg (by omega)]
        · have hcond : 0 ≤ start ∧ 0 < len ∧ start + len ≤ (joined s.2.data).length := ⟨by omega, by omega, by omega⟩
          rw [if_neg h3, if_pos hcond]
          cases hc : isCompressed s.1 with
          | true =>
            obtain ⟨a, _, c⟩ := hp hc
            rw [if_pos (by omega), lazyCopy_spec start.toNat f'.data s.2.data 0 len.toNat c (by omega) (by simpa using hsep hc) (by omega) (by omega)]
            rfl
          | false =>
            obtain ⟨a, _, c⟩ := hi.plain hc
            rw [if_neg (by simp [a])]
            have hlt : 0 < f'.data.length := by rw [hi.size]; exact List.length_pos_iff.2 hemp
            obtain ⟨ld, hld⟩ : ∃ ld, f'.data[0]? = some ld := ⟨_, List.getElem?_eq_getElem hlt⟩
            obtain ⟨r, hr⟩ := c ld hld
            have hpe : piece Z s.1 = fun d => d ++ [32] := by funext d; unfold piece; rw [hc]; rfl
            rw [hld, Res.ofOption, Res.ok_bind, ← List.drop_drop, hr]
            unfold bodyOf
            rw [hpe, joined_pieces _ hemp, List.append_assoc, List.drop_append_of_le_length (by omega)]
            generalize hx : (joined s.2.data).drop start.toNat = x
            have hxl : x.length = (joined s.2.data).length - start.toNat := by rw [← hx]; simp
            have : x ++ ([32] ++ r) = x.take len.toNat ++ (x.drop len.toNat ++ ([32] ++ r)) := by
              conv => rhs; rw [← List.append_assoc, List.take_append_drop]
            rw [this]
            have hrb := rdBytes_append (x.take len.toNat) (x.drop len.toNat ++ ([32] ++ r))
            rw [show (x.take len.toNat).length = len.toNat by simp; omega] at hrb
            rw [hrb, Res.ok_bind]

end Ferret.Fields
