import Verif.Lemmas.Documents

/-!
Printing documents (C97): the texts fit in what is allocated for them.
-/

namespace Ferret.Docs
open Ferret Ferret.Spec

theorem app_ok {cap : Nat} {out bs : List Byte} (h : out.length + bs.length ≤ cap) : app cap out bs = .ok (out ++ bs) := if_pos h

theorem addI_ok {a b : Int} (h : 0 ≤ a + b) (h' : a + b < 2 ^ 31) : addI a b = .ok (a + b) := if_pos ⟨by omega, h'⟩

/-- What the loop over the data writes. -/
def loopText : Bool → List (List Byte) → List Byte
  | _, [] => []
  | first, d :: ds => (if first then [] else [44, 32]) ++ quoted d ++ loopText false ds

theorem loopText_false (ds : List (List Byte)) : ∀ d, List.intercalate [44, 32] (quoted d :: ds.map quoted) = quoted d ++ loopText false ds := by
  induction ds with
  | nil => intro d; simp [List.intercalate, loopText]
  | cons e es ih =>
    intro d
    have := ih e
    simp only [List.intercalate, List.map_cons, List.intersperse_cons₂, List.flatten_cons, loopText, Bool.false_eq_true, if_false] at this ⊢
    rw [this]
    simp

theorem loopText_true (ds : List (List Byte)) : loopText true ds = List.intercalate [44, 32] (ds.map quoted) := by
  cases ds with
  | nil => rfl
  | cons d ds => rw [List.map_cons, loopText_false]; simp [loopText]

/-- How long the texts are with four bytes for each. -/
def total : List (List Byte) → Nat
  | [] => 0
  | d :: ds => d.length + 4 + total ds

theorem loopText_len (ds : List (List Byte)) : (loopText false ds).length = total ds := by
  induction ds with
  | nil => rfl
  | cons d ds ih => simp [loopText, total, quoted, ih]; omega

theorem loopText_len_true (d : List Byte) (ds : List (List Byte)) : (loopText true (d :: ds)).length + 2 = total (d :: ds) := by
  simp only [loopText, total, quoted, if_true, List.length_append, loopText_len, List.length_cons, List.length_nil]; omega

theorem textsOf_some {W : List Thing} (data : List (Nat × Nat)) : ∀ {ds : List (List Byte)}, textsOf W data = some ds → ∀ x ∈ data, ∃ b, W[x.1]? = some (.text b) := by
  induction data with
  | nil => intro ds _ x hx; cases hx
  | cons y ys ih =>
    intro ds h x hx
    simp only [textsOf] at h
    split at h
    · rename_i b r h1 h2
      rcases List.mem_cons.1 hx with rfl | hx
      · exact ⟨b, h1⟩
      · exact ih h2 x hx
    · cases h

theorem showData_ok {st : St} {W : List Thing} (hr : Rel st W) (cap : Nat) (data : List (Nat × Nat)) :
    ∀ (ds : List (List Byte)) (out : List Byte) (first : Bool), textsOf W data = some ds →
      (∀ x ∈ data, ∀ b, W[x.1]? = some (.text b) → x.2 ≤ b.length) → out.length + (loopText first ds).length ≤ cap →
      showData st.heap cap out first (data.map fun x => (x.1, (x.2 : Int))) = .ok (out ++ loopText first ds) := by
  induction data with
  | nil => intro ds out first h _ _; cases h; simp [showData, loopText]
  | cons y ys ih =>
    intro ds out first h hl hc
    simp only [textsOf] at h
    split at h
    · rename_i b r h1 h2
      cases h
      have hn := hl y (by simp) b h1
      have hb : b.take y.2 = (b ++ [0]).take y.2 := by rw [List.take_append_of_le_length hn]
      simp only [loopText, quoted, List.length_append, List.length_cons, List.length_nil, Nat.zero_add] at hc
      have hq : (if first then (.ok out : Res (List Byte)) else app cap out [44, 32]) = .ok (out ++ (if first then [] else [44, 32])) := by
        cases first with
        | true => simp
        | false => simp only [Bool.false_eq_true, if_false]; exact app_ok (by simp at hc ⊢; omega)
      simp only [List.map_cons, showData]
      rw [hq, Res.ok_bind, app_ok (by simp only [List.length_append, List.length_cons, List.length_nil]; omega), Res.ok_bind]
      unfold appData getStr
      rw [hr.str h1]
      simp only [Res.ok_bind]
      rw [if_pos ⟨Int.natCast_nonneg _, by omega⟩, Int.toNat_natCast, ← hb, app_ok (by simp only [List.length_append, List.length_cons, List.length_nil]; omega), Res.ok_bind,
        app_ok (by simp only [List.length_append, List.length_cons, List.length_nil]; omega), Res.ok_bind]
      rw [ih r _ false h2 (fun x hx => hl x (by simp [hx])) (by simp only [List.length_append, List.length_cons, List.length_nil]; omega)]
      simp only [loopText, quoted, List.append_assoc]
    · cases h

theorem sumLens_ok {W : List Thing} (data : List (Nat × Nat)) : ∀ (ds : List (List Byte)) (len : Nat), textsOf W data = some ds →
    (∀ x ∈ data, ∀ b, W[x.1]? = some (.text b) → x.2 ≤ b.length) → len + total ds < 2 ^ 31 →
    sumLens len (data.map fun x => (x.1, (x.2 : Int))) = .ok ((len + total ds : Nat) : Int) := by
  induction data with
  | nil => intro ds len h _ _; cases h; rfl
  | cons y ys ih =>
    intro ds len h hl hc
    simp only [textsOf] at h
    split at h
    · rename_i b r h1 h2
      cases h
      have hn := hl y (by simp) b h1
      have he : (b.take y.2).length = y.2 := by rw [List.length_take]; omega
      simp only [total, he] at hc ⊢
      simp only [List.map_cons, sumLens]
      rw [addI_ok (by omega) (by omega), Res.ok_bind, addI_ok (by omega) (by omega), Res.ok_bind]
      have := ih r (len + (y.2 + 4)) h2 (fun x hx => hl x (by simp [hx])) (by omega)
      rw [show ((len : Int) + ((y.2 : Int) + 4)) = ((len + (y.2 + 4) : Nat) : Int) by omega, this]
      congr 1; omega
    · cases h

theorem textsOf_length {W : List Thing} (data : List (Nat × Nat)) : ∀ {ds : List (List Byte)}, textsOf W data = some ds → ds.length = data.length := by
  induction data with
  | nil => intro ds h; cases h; rfl
  | cons y ys ih =>
    intro ds h
    simp only [textsOf] at h
    split at h
    · rename_i b r h1 h2
      cases h
      simp [ih h2]
    · cases h

theorem fieldText_eq (name : List Byte) (ds : List (List Byte)) :
    docFieldText name ds = name ++ [58, 32] ++ (if ds.length > 1 then [91] else []) ++ loopText true ds ++ (if ds.length > 1 then [93] else []) := by
  rw [loopText_true]
  match ds with
  | [] => simp [docFieldText, List.intercalate]
  | [d] => simp [docFieldText, List.intercalate]
  | d :: e :: ds => simp [docFieldText]

/-- The text of a field and what is allocated for it. -/
theorem fieldText_room (name : List Byte) (ds : List (List Byte)) :
    (docFieldText name ds).length < name.length + total ds + 5 ∧ name.length + total ds ≤ (docFieldText name ds).length := by
  rw [fieldText_eq]
  match ds with
  | [] => simp [loopText, total]
  | [d] =>
    have := loopText_len_true d []
    simp only [List.length_append, List.length_cons, List.length_nil]
    simp; omega
  | d :: e :: ds =>
    have := loopText_len_true d (e :: ds)
    simp only [List.length_append, List.length_cons, List.length_nil]
    simp; omega

theorem dfToS_ok {st : St} {W : List Thing} (hr : Rel st W) {f : Nat} {t : List Byte} (ht : textOfField W f = some t) (hl : t.length + 5 < 2 ^ 31) :
    dfToS st f = .ok t := by
  unfold textOfField at ht
  split at ht
  · rename_i name data own hw
    simp only [Option.map_eq_some_iff] at ht
    obtain ⟨ds, hds, rfl⟩ := ht
    obtain ⟨df, h1, h2, h3, h4, h5, k, h6⟩ := hr.field hw
    have hlens : ∀ x ∈ data, ∀ b, W[x.1]? = some (.text b) → x.2 ≤ b.length := fun x hx => (hr.lens f name data own hw x hx).2
    have hg : getField st.heap f = .ok df := by unfold getField; rw [h1]
    have hlen := textsOf_length data hds
    obtain ⟨hroom, hroom'⟩ := fieldText_room name ds
    have hsum := sumLens_ok data ds 0 hds hlens (by omega)
    simp only [Nat.zero_add] at hsum
    unfold dfToS
    rw [hg, Res.ok_bind, h2, Res.ofOption, Res.ok_bind, h3, slots_data h6, Res.ok_bind, show (0 : Int) = ((0 : Nat) : Int) from rfl, hsum, Res.ok_bind,
      addI_ok (by omega) (by omega), Res.ok_bind, addI_ok (by omega) (by omega), Res.ok_bind]
    have hcap : ((name.length : Int) + (total ds : Int) + 5).toNat = name.length + total ds + 5 := by omega
    simp only [hcap]
    rw [fieldText_eq] at hroom ⊢
    simp only [List.length_append, List.length_cons, List.length_nil] at hroom
    rw [app_ok (by simp only [List.length_nil]; omega), Res.ok_bind, app_ok (by simp only [List.length_append, List.length_cons, List.length_nil]; omega), Res.ok_bind]
    have e1 : ∀ (out : List Byte) (c : Byte), out.length + 1 ≤ name.length + total ds + 5 → (if data.length > 1 then app (name.length + total ds + 5) out [c] else .ok out) = .ok (out ++ if ds.length > 1 then [c] else []) := by
      intro out c hc
      rw [hlen]
      by_cases hd : data.length > 1
      · rw [if_pos hd, if_pos hd]; exact app_ok (by simpa using hc)
      · rw [if_neg hd, if_neg hd]; simp
    have e2 : (if ds.length > 1 then ([91] : List Byte) else []).length = (if ds.length > 1 then ([93] : List Byte) else []).length := by split <;> rfl
    rw [e1 _ _ (by simp only [List.length_append, List.length_cons, List.length_nil]; omega), Res.ok_bind,
      showData_ok hr _ data ds _ true hds hlens (by simp only [List.length_append, List.length_cons, List.length_nil]; omega), Res.ok_bind,
      e1 _ _ (by
        simp only [List.length_append, List.length_cons, List.length_nil]
        by_cases hd : ds.length > 1
        · simp only [hd, if_true, List.length_cons, List.length_nil] at hroom ⊢; omega
        · simp only [hd, if_false, List.length_nil] at hroom ⊢; omega), Res.ok_bind]
    unfold finish
    rw [if_pos (by simp only [List.length_append, List.length_cons, List.length_nil, List.nil_append]; omega)]
    simp
  · cases ht

theorem takeWhile_whole {t : List Byte} (h : (!t.contains 0) = true) : t.takeWhile (fun c => decide (c ≠ 0)) = t := by
  induction t with
  | nil => rfl
  | cons c t ih =>
    simp only [List.contains_cons, Bool.not_eq_true', Bool.or_eq_false_iff, beq_eq_false_iff_ne] at h
    rw [List.takeWhile_cons_of_pos (by simpa using fun e => h.1 e.symm), ih (by rw [h.2]; rfl)]

theorem fieldTexts_ok {st : St} {W : List Thing} (hr : Rel st W) (fs : List Nat) : ∀ (ts : List (List Byte)), textsOfFields W fs = some ts →
    (∀ t ∈ ts, t.length + 5 < 2 ^ 31) → fieldTexts st fs = .ok ts := by
  induction fs with
  | nil => intro ts h _; cases h; rfl
  | cons f fs ih =>
    intro ts h hl
    simp only [textsOfFields] at h
    split at h
    · rename_i t r h1 h2
      cases h
      simp only [fieldTexts]
      rw [dfToS_ok hr h1 (hl t (by simp)), Res.ok_bind, ih r h2 (fun t ht => hl t (by simp [ht]))]
      rfl
    · cases h

/-- The lines of the fields of a document. -/
def lines (ts : List (List Byte)) : List Byte := ts.flatMap fun t => [32, 32, 61, 62] ++ t ++ [10]

theorem sumTexts_ok (ts : List (List Byte)) : ∀ (len : Nat), (∀ t ∈ ts, (!t.contains 0) = true) → len + (lines ts).length < 2 ^ 31 →
    sumTexts len ts = .ok ((len + (lines ts).length : Nat) : Int) := by
  induction ts with
  | nil => intro len _ _; rfl
  | cons t ts ih =>
    intro len h0 hl
    have e : strlen t = t.length := by unfold strlen; rw [takeWhile_whole (h0 t (by simp))]
    have e' : (lines (t :: ts)).length = t.length + 5 + (lines ts).length := by simp [lines]; omega
    rw [e'] at hl ⊢
    simp only [sumTexts, e]
    rw [addI_ok (by omega) (by omega), Res.ok_bind, show ((len : Int) + ((t.length + 5 : Nat) : Int)) = ((len + (t.length + 5) : Nat) : Int) by omega,
      ih _ (fun t ht => h0 t (by simp [ht])) (by omega)]
    congr 1; omega

theorem showTexts_ok (cap : Nat) (ts : List (List Byte)) : ∀ (out : List Byte), (∀ t ∈ ts, (!t.contains 0) = true) → out.length + (lines ts).length < cap →
    showTexts cap out ts = .ok (out ++ lines ts) := by
  induction ts with
  | nil => intro out _ _; simp [showTexts, lines]
  | cons t ts ih =>
    intro out h0 hl
    have e' : (lines (t :: ts)).length = t.length + 5 + (lines ts).length := by simp [lines]; omega
    rw [e'] at hl
    simp only [showTexts]
    rw [takeWhile_whole (h0 t (by simp)), app_ok (by simp; omega), Res.ok_bind]
    unfold finish
    rw [if_pos (by simp; omega), Res.ok_bind, ih _ (fun t ht => h0 t (by simp [ht])) (by simp; omega)]
    simp [lines]

theorem lines_mem {t : List Byte} {ts : List (List Byte)} (h : t ∈ ts) : t.length + 5 ≤ (lines ts).length := by
  induction ts with
  | nil => cases h
  | cons s ts ih =>
    have e' : (lines (s :: ts)).length = s.length + 5 + (lines ts).length := by simp [lines]; omega
    rcases List.mem_cons.1 h with rfl | h
    · omega
    · have := ih h; omega

theorem docToS_ok {st : St} {W : List Thing} (hr : Rel st W) {d : Nat} {fs : List (List Byte × Nat)} (hd : W[d]? = some (.doc fs)) {ts : List (List Byte)}
    (ht : textsOfFields W (fs.map (·.2)) = some ts) (hl : (docText ts).length + 5 < 2 ^ 31) (h0 : ts.all (fun t => !t.contains 0) = true) :
    docToS st d = .ok (docText ts) := by
  obtain ⟨doc, h1, h2, h3, h4, k, h5⟩ := hr.doc hd
  have hg : getDoc st.heap d = .ok doc := by unfold getDoc; rw [h1]
  have h0' : ∀ t ∈ ts, (!t.contains 0) = true := by simpa using h0
  have hlen : (docText ts).length = 11 + (lines ts).length := by simp [docText, lines]; omega
  have hsum := sumTexts_ok ts 0 h0' (by omega)
  simp only [Nat.zero_add] at hsum
  unfold docToS
  rw [hg, Res.ok_bind, h2, slots_fields h5, Res.ok_bind, fieldTexts_ok hr _ ts ht (fun t hm => by have := lines_mem hm; omega), Res.ok_bind, show (0 : Int) = ((0 : Nat) : Int) from rfl, hsum,
    Res.ok_bind, addI_ok (by omega) (by omega), Res.ok_bind]
  have hcap : (((lines ts).length : Int) + 12).toNat = (lines ts).length + 12 := by omega
  simp only [hcap]
  have hh : docHead.length = 11 := rfl
  rw [app_ok (by simp only [List.length_nil, hh]; omega), Res.ok_bind]
  unfold finish
  rw [if_pos (by simp only [List.nil_append, hh]; omega), Res.ok_bind, showTexts_ok _ ts _ h0' (by simp only [List.nil_append, hh]; omega)]
  simp [docText, lines, docHead]

end Ferret.Docs
