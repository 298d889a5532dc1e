import Verif.Lemmas.MatchVector
import Verif.Lemmas.FieldsLazy
import Verif.Spec.Highlight

namespace Ferret.MV
open Ferret Ferret.Spec Ferret.Fis Ferret.Fields

theorem pureLoop_ends {gap : Int} {merge : MR → MR → MR}
    (hm : ∀ l r, (merge l r).start = l.start ∧ (merge l r).stop = max l.stop r.stop) :
    ∀ (rs done : List MR) (cur : MR), ∀ o ∈ pureLoop gap merge done cur rs,
      (∃ x ∈ done ++ cur :: rs, o.start = x.start) ∧ ∃ x ∈ done ++ cur :: rs, o.stop = x.stop := by
  intro rs
  induction rs with
  | nil => intro done cur o ho; exact ⟨⟨o, ho, rfl⟩, o, ho, rfl⟩
  | cons r rs ih =>
    intro done cur o ho
    unfold pureLoop at ho
    unfold act at ho
    split at ho
    · have := ih _ _ o ho
      simpa using this
    · rename_i l heq
      split at heq
      · cases heq
      · simp only [Act.extend.injEq] at heq
        subst heq
        obtain ⟨m1, m2⟩ := hm cur r
        obtain ⟨⟨x, hx, hx2⟩, y, hy, hy2⟩ := ih _ _ o ho
        constructor
        · rcases List.mem_append.1 hx with hx | hx
          · exact ⟨x, by simp [hx], hx2⟩
          · rcases List.mem_cons.1 hx with hx | hx
            · subst hx; exact ⟨cur, by simp, by rw [hx2, m1]⟩
            · exact ⟨x, by simp [hx], hx2⟩
        · rcases List.mem_append.1 hy with hy | hy
          · exact ⟨y, by simp [hy], hy2⟩
          · rcases List.mem_cons.1 hy with hy | hy
            · subst hy
              rw [m2] at hy2
              by_cases hle : cur.stop ≤ r.stop
              · exact ⟨r, by simp, by omega⟩
              · exact ⟨cur, by simp, by omega⟩
            · exact ⟨y, by simp [hy], hy2⟩

/-- Offsets that go forward from `last` and stay within the text. -/
def Forward (text : List Byte) : Int → List (Int × Int) → Prop
  | last, [] => 0 ≤ last ∧ last ≤ text.length
  | last, (s, e) :: os => 0 ≤ last ∧ last ≤ s ∧ s ≤ e ∧ Forward text e os

theorem Forward.bound {text : List Byte} : ∀ {os : List (Int × Int)} {last : Int}, Forward text last os → 0 ≤ last ∧ last ≤ text.length := by
  intro os
  induction os with
  | nil => intro last h; exact h
  | cons o os ih => intro last h; have := ih h.2.2.2; have h1 := h.1; have h2 := h.2.1; have h3 := h.2.2.1; omega

/-- The text between two offsets. -/
def span (text : List Byte) (s e : Int) : List Byte := (text.drop s.toNat).take (e - s).toNat

theorem span_self (text : List Byte) (s : Int) : span text s s = [] := by simp [span]

theorem span_append (text : List Byte) {a b c : Int} (h0 : 0 ≤ a) (h1 : a ≤ b) (h2 : b ≤ c) : span text a b ++ span text b c = span text a c := by
  unfold span
  have e : (c - a).toNat = (b - a).toNat + (c - b).toNat := by omega
  have e2 : b.toNat = a.toNat + (b - a).toNat := by omega
  rw [e, List.take_add, e2, List.drop_drop]

theorem span_length (text : List Byte) {a b : Int} (h0 : 0 ≤ a) (h1 : a ≤ b) (h2 : b ≤ text.length) : ((span text a b).length : Int) = b - a := by
  unfold span
  simp only [List.length_take, List.length_drop]
  omega

theorem span_all (text : List Byte) : span text 0 text.length = text := by simp [span]

/-- The parts around the offsets. -/
def partsOf (text : List Byte) : Int → List (Int × Int) → List (List Byte × List Byte)
  | _, [] => []
  | last, (s, e) :: os => (span text last s, span text s e) :: partsOf text e os

/-- Where the last part ends. -/
def endOf : Int → List (Int × Int) → Int
  | last, [] => last
  | _, (_, e) :: os => endOf e os

theorem Forward.endOf {text : List Byte} : ∀ {os : List (Int × Int)} {last : Int}, Forward text last os →
    last ≤ MV.endOf last os ∧ MV.endOf last os ≤ text.length := by
  intro os
  induction os with
  | nil => intro last h; exact ⟨by simp [MV.endOf], h.2⟩
  | cons o os ih => intro last h; have := ih h.2.2.2; have h2 := h.2.1; have h3 := h.2.2.1; simp only [MV.endOf]; omega

theorem partsOf_plain (text : List Byte) : ∀ (os : List (Int × Int)) (last : Int), Forward text last os →
    ((partsOf text last os).map fun p => p.1 ++ p.2).flatten = span text last (endOf last os) := by
  intro os
  induction os with
  | nil => intro last _; simp [partsOf, endOf, span_self]
  | cons o os ih =>
    intro last h
    obtain ⟨s, e⟩ := o
    have hb := h.2.2.2.endOf
    simp only [partsOf, List.map_cons, List.flatten_cons, endOf]
    have h1 := h.1
    have h2 := h.2.1
    have h3 := h.2.2.1
    rw [ih e h.2.2.2, span_append text h1 h2 h3, span_append text h1 (by omega) hb.1]

theorem partsOf_tags (text : List Byte) : ∀ (os : List (Int × Int)) (last : Int), Forward text last os →
    ∀ (i : Nat) (s e : Int), os[i]? = some (s, e) →
      ∃ p, (partsOf text last os)[i]? = some p ∧
        last + ((((partsOf text last os).take i).map fun p => p.1 ++ p.2).flatten ++ p.1).length = s ∧ s + p.2.length = e := by
  intro os
  induction os with
  | nil => intro last _ i s e h; simp at h
  | cons o os ih =>
    intro last h i s e hi
    obtain ⟨s0, e0⟩ := o
    have h1 := h.1
    have h2 := h.2.1
    have h3 := h.2.2.1
    have hb := h.2.2.2.bound
    cases i with
    | zero =>
      simp only [List.getElem?_cons_zero, Option.some.injEq, Prod.mk.injEq] at hi
      obtain ⟨rfl, rfl⟩ := hi
      refine ⟨_, rfl, ?_, ?_⟩
      · simp only [List.take_zero, List.map_nil, List.flatten_nil, List.nil_append]
        rw [span_length text h1 h2 (by omega)]; omega
      · rw [span_length text (by omega) h3 (by omega)]; omega
    | succ i =>
      obtain ⟨p, p1, p2, p3⟩ := ih e0 h.2.2.2 i s e (by simpa using hi)
      refine ⟨p, by simpa [partsOf] using p1, ?_, p3⟩
      simp only [partsOf, List.take_succ_cons, List.map_cons, List.flatten_cons, List.append_assoc, List.length_append] at p2 ⊢
      have a1 := span_length text h1 h2 (by omega)
      have a2 := span_length text (by omega) h3 (by omega)
      omega

section
variable {Z : Zip} (hZ : Lawful Z) {fdt : List Byte} {s : FI × DocF} (hs : GoodField Z s.1 s.2) (hu : isCompressed s.1 = false)
  (hlt : (joined s.2.data).length < 2 ^ 31)
include hZ hs hu hlt

theorem copyBytes_spec {f : LazyF} (h : LInv Z fdt s f) {a b : Int} (h0 : 0 ≤ a) (h1 : a ≤ b) (h2 : b ≤ (joined s.2.data).length) :
    ∃ f', copyBytes Z fdt f a (b - a) = .ok (f', span (joined s.2.data) a b) ∧ LInv Z fdt s f' := by
  unfold copyBytes
  by_cases hz : b - a ≠ 0
  · rw [if_pos hz]
    obtain ⟨f', e, i⟩ := lazyGetBytes_spec hZ hs h a (b - a) (by omega) (fun hc => by rw [hu] at hc; cases hc)
    refine ⟨f', ?_, i⟩
    rw [e, Res.ok_bind]
    dsimp only
    unfold bytesOf
    rw [if_pos ⟨h0, by omega, by omega⟩]
    rfl
  · rw [if_neg hz]
    refine ⟨f, ?_, h⟩
    have : b = a := by omega
    subst this
    rw [span_self]

theorem highlightLoop_spec (pre post : List Byte) : ∀ (os : List (Int × Int)) (f : LazyF) (last : Int), LInv Z fdt s f →
    Forward (joined s.2.data) last os →
    ∃ f', highlightLoop Z fdt pre post f last os = .ok ((f', endOf last os),
        ((partsOf (joined s.2.data) last os).map fun p => p.1 ++ pre ++ p.2 ++ post).flatten) ∧ LInv Z fdt s f' := by
  intro os
  induction os with
  | nil => intro f last h hf; exact ⟨f, rfl, h⟩
  | cons o os ih =>
    intro f last h hf
    obtain ⟨st, e⟩ := o
    have h1 := hf.1
    have h2 := hf.2.1
    have h3 := hf.2.2.1
    have hb := hf.2.2.2.bound
    obtain ⟨f1, e1, i1⟩ := copyBytes_spec hZ hs hu hlt h h1 h2 (by omega)
    obtain ⟨f2, e2, i2⟩ := copyBytes_spec hZ hs hu hlt i1 (a := st) (b := e) (by omega) h3 (by omega)
    obtain ⟨f3, e3, i3⟩ := ih f2 e i2 hf.2.2.2
    refine ⟨f3, ?_, i3⟩
    simp only [highlightLoop, e1, e2, e3, Res.ok_bind, partsOf, endOf, List.map_cons, List.flatten_cons, List.append_assoc]

theorem plain_len {f : LazyF} (h : LInv Z fdt s f) (hne : s.2.data ≠ []) : f.len = (joined s.2.data).length := by
  have hl := joined_length _ hne
  rw [(h.plain hu).2.1]
  have hpe : piece Z s.1 = fun d => d ++ [32] := by funext d; unfold piece; rw [hu]; rfl
  have : (bodyOf Z s).length = (s.2.data.map (fun d => d.length + 1)).sum := by
    simp [bodyOf, List.length_flatten, hpe, Function.comp_def]
  omega

end

theorem tagged_length (pre post : List Byte) (ps : List (List Byte × List Byte)) :
    (ps.map fun p => p.1 ++ pre ++ p.2 ++ post).flatten.length =
      (ps.map fun p => p.1 ++ p.2).flatten.length + ps.length * (pre.length + post.length) := by
  induction ps with
  | nil => simp
  | cons p ps ih =>
    simp only [List.map_cons, List.flatten_cons, List.length_append, List.length_cons, ih, Nat.add_mul]
    omega

theorem partsOf_length (text : List Byte) : ∀ (os : List (Int × Int)) (last : Int), (partsOf text last os).length = os.length := by
  intro os
  induction os with
  | nil => intro _; rfl
  | cons o os ih => intro last; obtain ⟨s, e⟩ := o; simp [partsOf, ih]

end Ferret.MV
