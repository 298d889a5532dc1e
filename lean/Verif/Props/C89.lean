import Verif.Lemmas.LegacyWords
import Verif.Props.C63

/-!
C89: the legacy standard tokenizer, of one-byte and of multi-byte texts.
-/

namespace Ferret.Props
open Ferret Ferret.Spec Ferret.Ana

/-- **C89 (tokens are parts of the text).** Of a text with a blank among any 257 bytes, and that does not begin with a
mark and a digit, the tokenizer makes tokens without reading or writing outside of its buffers. Each token gives a part
of the text, in one of the ways of `GivenAs`; the parts are in order and apart; and each letter and each digit of
the text is in one of the parts: nothing that could be searched for is left out.

Missing: other texts, see `c89_sign_first_ub`, `c89_scheme_ub`, `c89_slashes_ub` and `c89_acronym_ub`. -/
theorem c89_ascii_partial (L : Loc) (hL : CtypeLaws L) (text : List Byte) (hs : ShortWords text) (hf : SignFirst text = false) :
    ∃ tks, legacyTokens L (LegacyOps.ascii L) text = .ok tks ∧ (∀ tk ∈ tks, TokenOf L text tk) ∧ tks.Pairwise (fun a b => a.stop ≤ b.start) ∧
      ∀ (i : Nat) b, text[i]? = some b → isLetterOrDigit L b = true → ∃ tk ∈ tks, tk.start ≤ (i : Int) ∧ (i : Int) < tk.stop := by
  obtain ⟨tks, h1, h2, h3, h4⟩ := legacy_drain hL (ascii_laws hL) hs hf L.isAlnum
    (by
      intro s k h
      simp only [LegacyOps.ascii] at h
      split at h
      · rw [Option.some.injEq] at h
        subst h
        exact (legacySkip_spec L s).2.1
      · exact absurd h (by simp))
    (by
      intro s h
      simp only [LegacyOps.ascii] at h
      split at h
      · exact absurd h (by simp)
      · rename_i hn
        obtain ⟨ha, hb, _⟩ := legacySkip_spec L s
        rw [show legacySkip L s = s.length by omega, List.take_length] at hb
        exact hb)
    (text.length + 1) 0 (by omega) (by omega)
  exact ⟨tks, h1, fun tk ht => (h2 tk ht).1, h3, fun i b hb hp => h4 i b (by omega) hb hp⟩

/-- **C89 (multi-byte).** The same of the multi-byte tokenizer, but for the letters that are not in a token: this
one begins tokens at characters that are letters or digits in the locale, and goes on by bytes.

Missing: other texts, as above, and that every letter and digit is in a token. -/
theorem c89_mb_partial (L : Loc) (hL : CtypeLaws L) (M : MbLoc) (alnum : Nat → Bool) (hM : AsciiSafe M alnum) (text : List Byte) (hs : ShortWords text)
    (hf : SignFirst text = false) :
    ∃ tks, legacyTokens L (LegacyOps.mb M alnum) text = .ok tks ∧ (∀ tk ∈ tks, TokenOf L text tk) ∧ tks.Pairwise (fun a b => a.stop ≤ b.start) := by
  obtain ⟨tks, h1, h2, h3, _⟩ := legacy_drain hL (mb_laws hM) hs hf (fun _ => false) (by simp) (by simp) (text.length + 1) 0 (by omega) (by omega)
  exact ⟨tks, h1, fun tk ht => (h2 tk ht).1, h3⟩

/-- **C89 (what words are given as).** A text of words with blanks between them, where each is a plain word, a word with a full
stop or a comma after it, a possessive, a contraction, the name of a company, an acronym, a web address, a number or
an address, gives exactly these words, in the way of each kind, with where they are. The words may be of any
length, but for acronyms and web addresses. -/
theorem c89_words (L : Loc) (hL : CtypeLaws L) (ws : List (List Byte × List Byte × List Byte)) (hw : ∀ w ∈ ws, LegacyWord L w.1 w.2.1 w.2.2) :
    legacyTokens L (LegacyOps.ascii L) (spaced ws) = .ok (spacedTokens 0 ws) :=
  spaced_tokens hL ws hw

/-! ### Where it goes wrong -/

/-- **C89 (a number at the beginning).** Of the text ".5:" the tokenizer reads the byte before the text: the full stop is a mark at the
beginning of the word, so the scan for addresses looks at the byte before it (analysis.c 975–980). -/
theorem c89_sign_first_ub : legacyTokens ascii (LegacyOps.ascii ascii) [46, 53, 58] = .ub := by decide +kernel

/-- **C89 (long schemes).** 300 letters and "://x": the letters are copied to a buffer of 256 bytes and its end is written to
where the letters end (analysis.c 949–952). -/
theorem c89_scheme_ub : legacyTokens ascii (LegacyOps.ascii ascii) (List.replicate 300 97 ++ [58, 47, 47, 120]) = .ub := by decide +kernel

/-- **C89 (slashes).** "x:" and 256 slashes: all of them are copied to the buffer of 256 bytes (analysis.c 965–968). -/
theorem c89_slashes_ub : legacyTokens ascii (LegacyOps.ascii ascii) ([120, 58] ++ List.replicate 256 47) = .ub := by decide +kernel

/-- **C89 (long acronyms).** 257 letters with full stops between them: the letters of acronyms are put into the buffer of 256
bytes without a limit (analysis.c 1009–1015). -/
theorem c89_acronym_ub : legacyTokens ascii (LegacyOps.ascii ascii) ((List.replicate 257 [97, 46]).flatten) = .ub := by decide +kernel

/-! ### Non-vacuity -/

theorem ascii_ctype : CtypeLaws ascii where
  letter := by
    intro b h
    simp only [ascii, Bool.or_eq_true, Bool.and_eq_true, decide_eq_true_eq]
    exact h
  digit := by
    intro b h
    have : ∀ i : Fin 256, isDigit (UInt8.ofNat i.val) = true → ascii.isAlpha (UInt8.ofNat i.val) = false := by decide +kernel
    have h2 := this ⟨b.toNat, b.toNat_lt⟩
    simp only [UInt8.ofNat_toNat] at h2
    exact h2 h
  mark := by
    intro b h
    have : ∀ i : Fin 256, isMark (UInt8.ofNat i.val) = true → ascii.isAlpha (UInt8.ofNat i.val) = false := by decide +kernel
    have h2 := this ⟨b.toNat, b.toNat_lt⟩
    simp only [UInt8.ofNat_toNat] at h2
    exact h2 h
  space := by
    intro b h
    have : ∀ i : Fin 256, (isMark (UInt8.ofNat i.val) = true ∧ UInt8.ofNat i.val ≠ 32) ∨ ascii.isAlpha (UInt8.ofNat i.val) = true ∨ isDigit (UInt8.ofNat i.val) = true →
      ascii.isSpace (UInt8.ofNat i.val) = false := by decide +kernel
    have h2 := this ⟨b.toNat, b.toNat_lt⟩
    simp only [UInt8.ofNat_toNat] at h2
    exact h2 h

/-- The letters and digits of the small locale. -/
def utf8Alnum (w : Nat) : Bool := utf8.isAlpha w || (48 ≤ w && w ≤ 57)

theorem cont_byte {x : Byte} (h : x.toNat / 64 = 2) : 128 ≤ x.toNat := by omega

theorem utf8_safe : AsciiSafe utf8 utf8Alnum where
  ascii := by
    intro b bs h
    simp [utf8, h]
  wide := by
    intro b bs w n hb h
    simp only [utf8] at h
    rw [if_neg (by omega)] at h
    split at h
    · split at h
      · split at h
        · rename_i h1 b' bs' h2
          simp only [Option.some.injEq, Prod.mk.injEq] at h
          obtain ⟨rfl, rfl⟩ := h
          refine ⟨by omega, by omega, by simp, ?_⟩
          intro x hx
          simp only [List.take_succ_cons, List.take_zero, List.mem_cons, List.not_mem_nil, or_false] at hx
          rcases hx with rfl | rfl
          · exact hb
          · exact cont_byte h2
        · exact absurd h (by simp)
      · exact absurd h (by simp)
    · split at h
      · split at h
        · split at h
          · rename_i h0 h1 b' c' bs' h2
            simp only [Option.some.injEq, Prod.mk.injEq] at h
            obtain ⟨rfl, rfl⟩ := h
            refine ⟨?_, by omega, by simp, ?_⟩
            · have h3 : 128 ≤ b'.toNat := cont_byte h2.1
              by_cases h4 : b.toNat = 224
              · have : 160 ≤ b'.toNat := h2.2.2.resolve_left (by omega)
                omega
              · omega
            · intro x hx
              simp only [List.take_succ_cons, List.take_zero, List.mem_cons, List.not_mem_nil, or_false] at hx
              rcases hx with rfl | rfl | rfl
              · exact hb
              · exact cont_byte h2.1
              · exact cont_byte h2.2.1
          · exact absurd h (by simp)
        · exact absurd h (by simp)
      · exact absurd h (by simp)
  mark := by
    intro b h
    have : ∀ i : Fin 256, isMark (UInt8.ofNat i.val) = true → utf8Alnum (UInt8.ofNat i.val).toNat = false := by decide +kernel
    have h2 := this ⟨b.toNat, b.toNat_lt⟩
    simp only [UInt8.ofNat_toNat] at h2
    exact h2 h
  space := by
    intro b h hb
    have : ∀ i : Fin 256, isMark (UInt8.ofNat i.val) = true → UInt8.ofNat i.val ≠ 32 → utf8.isSpace (UInt8.ofNat i.val).toNat = false := by decide +kernel
    have h2 := this ⟨b.toNat, b.toNat_lt⟩
    simp only [UInt8.ofNat_toNat] at h2
    exact h2 h hb

/-- Short texts have short words. -/
theorem shortWords_short {text : List Byte} (h : text.length ≤ 256) : ShortWords text := by
  intro i hi
  omega

/-- "I.B.M. dave's 1,5" -/
def legacyText : List Byte := [73, 46, 66, 46, 77, 46, 32, 100, 97, 118, 101, 39, 115, 32, 49, 44, 53]

example : ShortWords legacyText ∧ SignFirst legacyText = false := ⟨shortWords_short (by decide), by decide⟩
/-- A long text with short words: 100 times the text and a blank. -/
example : SignFirst (List.replicate 100 (legacyText ++ [32])).flatten = false := by decide +kernel
example : legacyTokens ascii (LegacyOps.ascii ascii) legacyText = .ok [⟨[73, 66, 77], 0, 5, 1⟩, ⟨[100, 97, 118, 101], 7, 13, 1⟩, ⟨[49, 44, 53], 14, 17, 1⟩] := by decide +kernel
example : legacyTokens ascii (LegacyOps.mb utf8 utf8Alnum) legacyText = .ok [⟨[73, 66, 77], 0, 5, 1⟩, ⟨[100, 97, 118, 101], 7, 13, 1⟩, ⟨[49, 44, 53], 14, 17, 1⟩] := by decide +kernel
/-- "É1 x" -/
example : legacyTokens ascii (LegacyOps.mb utf8 utf8Alnum) [195, 137, 49, 32, 120] = .ok [⟨[195, 137, 49], 0, 3, 1⟩, ⟨[120], 4, 5, 1⟩] := by decide +kernel

/-- " I.B.M. dave's -1,5 AT&T don't http://a.b e-mail end." -/
def legacyWords : List (List Byte × List Byte × List Byte) :=
  [([73, 46, 66, 46, 77], [46], [73, 66, 77]), ([100, 97, 118, 101, 39, 115], [], [100, 97, 118, 101]), ([45, 49, 44, 53], [], [45, 49, 44, 53]),
   ([65, 84, 38, 84], [], [65, 84, 38, 84]), ([100, 111, 110, 39, 116], [], [100, 111, 110, 39, 116]),
   ([104, 116, 116, 112, 58, 47, 47, 97, 46, 98], [], [97, 46, 98]), ([101, 45, 109, 97, 105, 108], [], [101, 45, 109, 97, 105, 108]), ([101, 110, 100], [46], [101, 110, 100])]

theorem legacyWords_words : ∀ w ∈ legacyWords, LegacyWord ascii w.1 w.2.1 w.2.2 := by
  intro w hw
  simp only [legacyWords, List.mem_cons, List.not_mem_nil, or_false] at hw
  rcases hw with rfl | rfl | rfl | rfl | rfl | rfl | rfl | rfl
  · exact .acronym [73, 66, 77] [46] (by decide) (by decide) (by decide) (by decide)
  · exact .possessive [100, 97, 118, 101] [39, 115] (by decide) (by decide) (by decide)
  · exact .number [45] [49, 44, 53] (.inr ⟨45, rfl, by decide⟩) (by decide) (by simp [isDigit]) (by decide) ⟨by decide, by decide, trivial⟩
  · exact .company [65, 84] [84] (by decide) (by decide) (by decide)
  · exact .contraction [100, 111, 110] [116] (by decide) (by decide) (by decide) (by decide) (by decide)
  · exact .url [104, 116, 116, 112] [97, 46, 98] (by decide) (by decide) (by decide) (by decide) ⟨by decide, by decide, trivial⟩ (by simp [isUrlMark])
  · exact .address [101] 45 [109, 97, 105, 108] (by decide) (by decide) (by decide) (by decide) (by decide) ⟨by decide, by decide, by decide, by decide, trivial⟩
      (by decide) (by decide) (by simp [isAddressMark, isUrlMark]) (.inl ⟨45, by decide, by decide, by decide⟩)
  · exact .ended [101, 110, 100] 46 (by decide) (by decide) (by decide)

example : legacyTokens ascii (LegacyOps.ascii ascii) (spaced legacyWords) = .ok (spacedTokens 0 legacyWords) := c89_words ascii ascii_ctype legacyWords legacyWords_words
example : (spacedTokens 0 legacyWords).map (fun tk => (tk.start, tk.stop)) = [(1, 6), (8, 14), (15, 19), (20, 24), (25, 30), (31, 41), (42, 48), (49, 52)] := by decide +kernel

#print axioms c89_ascii_partial
#print axioms c89_mb_partial
#print axioms c89_words
#print axioms c89_sign_first_ub
#print axioms c89_scheme_ub
#print axioms c89_slashes_ub
#print axioms c89_acronym_ub
end Ferret.Props
