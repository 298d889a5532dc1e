import Verif.Lemmas.Filters

/-!
C63: the whitespace and letter tokenizers give exactly the words of a text.
-/

namespace Ferret.Props
open Ferret Ferret.Spec Ferret.Ana

/-- **C63 (whitespace).** The tokens of any text are exactly its maximal runs of bytes that are not white space, in
order, with where they begin and end; the text of a token is the run, cut to 254 bytes; each is one position after
the one before. -/
theorem c63_whitespace (L : Loc) (text : List Byte) : ∃ spans, Runs (fun b => !L.isSpace b) text spans ∧
    (Tokenizer.ws L).tokens text = .ok (spans.map fun s => ⟨(between text s.1 s.2).take 254, s.1, s.2, 1⟩) :=
  byte_runs (fun b => !L.isSpace b) text

/-- **C63 (letters).** The same, for runs of letters. -/
theorem c63_letter (L : Loc) (text : List Byte) : ∃ spans, Runs L.isAlpha text spans ∧
    (Tokenizer.lt L).tokens text = .ok (spans.map fun s => ⟨(between text s.1 s.2).take 254, s.1, s.2, 1⟩) :=
  byte_runs L.isAlpha text

/-- **C63 (no tokenizing).** One token: the text, cut to 254 bytes. -/
theorem c63_non (text : List Byte) : Tokenizer.non.tokens text = .ok [⟨text.take 254, 0, text.length, 1⟩] := by
  simp only [Tokenizer.tokens, tkSet_eq]
  rfl

/-- **C63 (multi-byte, whitespace and letters).** Of a text that is characters as they are written, the tokens are
exactly its maximal runs of characters that are not white space, or that are letters; start and end are those of the
run in the bytes of the text.

Missing: texts that are not properly encoded, see `c63_invalid_doubled`. -/
theorem c63_mb_partial (L : MbLoc) (chs : List (Nat × List Byte)) (h : ∀ c ∈ chs, Written L c) :
    (∃ spans, Runs (fun c : Nat × List Byte => !L.isSpace c.1) chs spans ∧
      (Tokenizer.mbWs L false).tokens (bytesOf chs) =
        .ok (spans.map fun s => ⟨(bytesOf (between chs s.1 s.2)).take 254, (bytesOf (chs.take s.1)).length, (bytesOf (chs.take s.2)).length, 1⟩)) ∧
    (∃ spans, Runs (fun c : Nat × List Byte => L.isAlpha c.1) chs spans ∧
      (Tokenizer.mbLt L false).tokens (bytesOf chs) =
        .ok (spans.map fun s => ⟨(bytesOf (between chs s.1 s.2)).take 254, (bytesOf (chs.take s.1)).length, (bytesOf (chs.take s.2)).length, 1⟩)) :=
  ⟨mb_runs L (fun w => !L.isSpace w) chs h, mb_runs L L.isAlpha chs h⟩

/-- **C63 (multi-byte, lower case).** The same, with the text of a token the lower case forms (`low`) of its
characters, as many as fit in 254 bytes. -/
theorem c63_mb_lower_partial (L : MbLoc) (low : Nat → List Byte) (chs : List (Nat × List Byte)) (h : ∀ c ∈ chs, Written L c)
    (hlow : ∀ c ∈ chs, L.encode (L.toLower c.1) = some (low c.1) ∧ low c.1 ≠ []) :
    (∃ spans toks, Runs (fun c : Nat × List Byte => !L.isSpace c.1) chs spans ∧
      (Tokenizer.mbWs L true).tokens (bytesOf chs) = .ok toks ∧ toks.length = spans.length ∧ ∀ s tk, (s, tk) ∈ spans.zip toks →
        Fits 254 ((between chs s.1 s.2).map fun c => low c.1) tk.text ∧ tk.start = (bytesOf (chs.take s.1)).length ∧
        tk.stop = (bytesOf (chs.take s.2)).length ∧ tk.posInc = 1) ∧
    (∃ spans toks, Runs (fun c : Nat × List Byte => L.isAlpha c.1) chs spans ∧
      (Tokenizer.mbLt L true).tokens (bytesOf chs) = .ok toks ∧ toks.length = spans.length ∧ ∀ s tk, (s, tk) ∈ spans.zip toks →
        Fits 254 ((between chs s.1 s.2).map fun c => low c.1) tk.text ∧ tk.start = (bytesOf (chs.take s.1)).length ∧
        tk.stop = (bytesOf (chs.take s.2)).length ∧ tk.posInc = 1) :=
  ⟨mb_runs_lc L (fun w => !L.isSpace w) low chs h (fun c hc _ => hlow c hc), mb_runs_lc L L.isAlpha low chs h (fun c hc _ => hlow c hc)⟩

/-- A run list is unique, so the tokens are. -/
theorem c63_runs_unique {α : Type} (p : α → Bool) (cs : List α) (a b : List (Nat × Nat)) (ha : Runs p cs a) (hb : Runs p cs b) : a = b := by
  obtain ⟨ha1, ha2⟩ := ha
  obtain ⟨hb1, hb2⟩ := hb
  have lt : ∀ i j, Run p cs i j → i < j := fun _ _ h => h.some
  have gen : ∀ (a b : List (Nat × Nat)), (a.Pairwise fun x y => x.2 < y.1) → (b.Pairwise fun x y => x.2 < y.1) →
      (∀ s ∈ a, s.1 < s.2) → (∀ s ∈ b, s.1 < s.2) → (∀ s, s ∈ a ↔ s ∈ b) → a = b := by
    intro a
    induction a with
    | nil =>
      intro b _ _ _ _ h
      cases b with
      | nil => rfl
      | cons y ys => exact absurd ((h y).2 (by simp)) (by simp)
    | cons x a ih =>
      intro b h1 h2 h3 h4 h
      cases b with
      | nil => exact absurd ((h x).1 (by simp)) (by simp)
      | cons y b =>
        rw [List.pairwise_cons] at h1 h2
        have hxy : x = y := by
          rcases List.mem_cons.1 ((h x).1 (by simp)) with e | hx
          · exact e
          · rcases List.mem_cons.1 ((h y).2 (by simp)) with e | hy
            · exact e.symm
            · have := h2.1 x hx
              have := h1.1 y hy
              have := h3 x (by simp)
              have := h4 y (by simp)
              omega
        subst hxy
        congr 1
        refine ih b h1.2 h2.2 (fun s hs => h3 s (by simp [hs])) (fun s hs => h4 s (by simp [hs])) ?_
        intro s
        have hne : ∀ l : List (Nat × Nat), (∀ z ∈ l, x.2 < z.1) → s ∈ l → s ≠ x := by
          intro l hl hs he
          subst he
          have := hl s hs
          have := h3 s (by simp)
          omega
        constructor
        · intro hs
          rcases List.mem_cons.1 ((h s).1 (by simp [hs])) with e | hs'
          · exact absurd e (hne a h1.1 hs)
          · exact hs'
        · intro hs
          rcases List.mem_cons.1 ((h s).2 (by simp [hs])) with e | hs'
          · exact absurd e (hne b h2.1 hs)
          · exact hs'
  exact gen a b ha1 hb1 (fun s hs => lt _ _ ((ha2 s.1 s.2).1 hs)) (fun s hs => lt _ _ ((hb2 s.1 s.2).1 hs))
    (fun s => (ha2 s.1 s.2).trans (hb2 s.1 s.2).symm)

theorem placesFrom_ones : ∀ (tks : List Token) (p : Int), (∀ tk ∈ tks, tk.posInc = 1) →
    placesFrom p tks = (tks.map (·.text)).zipIdx.map fun x => (x.1, p + 1 + x.2) := by
  intro tks
  induction tks with
  | nil => intro p _; rfl
  | cons tk tks ih =>
    intro p h
    simp only [placesFrom, List.map_cons, List.zipIdx_cons]
    rw [h tk (by simp), ih (p + 1) (fun x hx => h x (by simp [hx]))]
    congr 1
    · simp
    · rw [Nat.zero_add, List.zipIdx_succ, List.map_map]
      apply List.map_congr_left
      intro x _
      simp only [Function.comp_apply, Prod.map_apply, id]
      congr 1
      omega

/-- Indexed, the `k`-th word of a text is at position `k` (see C62 for what an index then says of it). -/
theorem c63_positions (L : Loc) (text : List Byte) : ∃ spans tks, Runs (fun b => !L.isSpace b) text spans ∧
    (Tokenizer.ws L).tokens text = .ok tks ∧
    places tks = (spans.map fun s => (between text s.1 s.2).take 254).zipIdx.map fun x => (x.1, (x.2 : Int)) := by
  obtain ⟨spans, h1, h2⟩ := c63_whitespace L text
  refine ⟨spans, _, h1, h2, ?_⟩
  unfold places
  rw [placesFrom_ones _ _ (by
    intro tk htk
    obtain ⟨s, _, rfl⟩ := List.mem_map.1 htk
    rfl)]
  rw [List.map_map]
  apply List.map_congr_left
  intro x _
  congr 1
  omega

/-! ### Where it does not hold -/

/-- A small locale: UTF-8 of one to three bytes; the letters are those of ASCII and what is above 191; 'A' to 'Z' have
lower case forms, and so has U+023A, whose lower case form U+2C65 takes three bytes instead of two. -/
def utf8 : MbLoc where
  decode
    | [] => none
    | a :: bs =>
      if a.toNat < 128 then some (a.toNat, 1)
      else if 194 ≤ a.toNat ∧ a.toNat < 224 then
        match bs with
        | b :: _ => if b.toNat / 64 = 2 then some ((a.toNat - 192) * 64 + (b.toNat - 128), 2) else none
        | [] => none
      else if 224 ≤ a.toNat ∧ a.toNat < 240 then
        match bs with
        | b :: c :: _ =>
          if b.toNat / 64 = 2 ∧ c.toNat / 64 = 2 ∧ (a.toNat ≠ 224 ∨ 160 ≤ b.toNat) then some (((a.toNat - 224) * 64 + (b.toNat - 128)) * 64 + (c.toNat - 128), 3) else none
        | _ => none
      else none
  encode w :=
    if w < 128 then some [UInt8.ofNat w]
    else if w < 2048 then some [UInt8.ofNat (192 + w / 64), UInt8.ofNat (128 + w % 64)]
    else if w < 65536 then some [UInt8.ofNat (224 + w / 4096), UInt8.ofNat (128 + w / 64 % 64), UInt8.ofNat (128 + w % 64)]
    else none
  isSpace w := w == 32
  isAlpha w := (65 ≤ w && w ≤ 90) || (97 ≤ w && w ≤ 122) || 191 < w
  toLower w := if 65 ≤ w ∧ w ≤ 90 then w + 32 else if w = 570 then 11365 else w

/-- After a byte that is not properly encoded, the next character is read twice: "a\xffbc" has no such word as "abbc",
which the lower-casing tokenizers give. -/
theorem c63_invalid_doubled :
    (Tokenizer.mbLt utf8 true).tokens [97, 255, 98, 99] = .ok [⟨[97, 98, 98, 99], 0, 4, 1⟩] := by decide +kernel

/-- A multi-byte token may be cut within a character: here 253 times 'a' and then "é", of two bytes. -/
theorem c63_cut_character :
    (Tokenizer.mbWs utf8 false).tokens (List.replicate 253 97 ++ [195, 169]) =
      .ok [⟨List.replicate 253 97 ++ [195], 0, 255, 1⟩] := by decide +kernel

/-! ### The statements are about something -/

/-- ASCII. -/
def ascii : Loc where
  isSpace b := b == 32 || (9 ≤ b && b ≤ 13)
  isAlpha b := (65 ≤ b && b ≤ 90) || (97 ≤ b && b ≤ 122)
  toLower b := if 65 ≤ b ∧ b ≤ 90 then b + 32 else b

/-- " ab  c1". -/
example : (Tokenizer.ws ascii).tokens [32, 97, 98, 32, 32, 99, 49] = .ok [⟨[97, 98], 1, 3, 1⟩, ⟨[99, 49], 5, 7, 1⟩] := by decide +kernel
example : (Tokenizer.lt ascii).tokens [32, 97, 98, 32, 32, 99, 49] = .ok [⟨[97, 98], 1, 3, 1⟩, ⟨[99], 5, 6, 1⟩] := by decide +kernel
/-- "É Za" -/
example : (Tokenizer.mbWs utf8 true).tokens [195, 137, 32, 90, 97] = .ok [⟨[195, 137], 0, 2, 1⟩, ⟨[122, 97], 3, 5, 1⟩] := by decide +kernel

example : ∀ c ∈ [(201, [195, 137]), (32, [32]), (90, [90])], Written utf8 c := by
  intro c hc
  simp only [List.mem_cons, List.not_mem_nil, or_false] at hc
  rcases hc with rfl | rfl | rfl
  · exact ⟨by decide, by decide, fun _ => rfl⟩
  · exact ⟨by decide, by decide, fun _ => rfl⟩
  · exact ⟨by decide, by decide, fun _ => rfl⟩

#print axioms c63_whitespace
#print axioms c63_letter
#print axioms c63_non
#print axioms c63_mb_partial
#print axioms c63_mb_lower_partial
#print axioms c63_runs_unique
#print axioms c63_positions
#print axioms c63_invalid_doubled
#print axioms c63_cut_character
end Ferret.Props
