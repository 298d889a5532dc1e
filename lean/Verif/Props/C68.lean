import Verif.Lemmas.ScanUtf8
import Verif.Props.C65

/-!
C68: the standard tokenizer for UTF-8.
-/

namespace Ferret.Props
open Ferret Ferret.Spec Ferret.Scan

theorem tokens68 (signed : Bool) (text : List Byte) (ht : ∀ b ∈ text, b ≠ 0) (hs : ∀ b ∈ text, simByte signed b.toNat = true) : ∀ (fuel q : Nat), q ≤ text.length →
    tokens Utf8.machine signed text fuel q = tokens Ascii.machine signed text fuel q := by
  refine sim_tokens simCert hs (fun q hq => ?_)
  rcases c65_scan signed text ht 254 q hq with ⟨h, -⟩ | ⟨s, e, tok, h, -, -, he, -⟩
  · exact Or.inl h
  · exact Or.inr ⟨_, h, by dsimp only; rw [Int.toNat_natCast]; exact he⟩

/-- **C68 (ASCII texts).** An ASCII text has the same tokens as with the ASCII tokenizer, whatever the signedness of
char. -/
theorem c68_ascii (signed : Bool) (text : List Byte) (ht : ∀ b ∈ text, b ≠ 0 ∧ b < 128) : allTokens Utf8.machine signed text = allTokens Ascii.machine signed text := by
  refine tokens68 signed text (fun b hb => (ht b hb).1) (fun b hb => ?_) _ 0 (Nat.zero_le _)
  have : b.toNat < 128 := (ht b hb).2
  unfold simByte
  rw [decide_eq_true this, Bool.or_true]

/-- **C68 (words).** If an ASCII text is of letters, digits and plain separators, the tokens are exactly its maximal runs
of letters and digits. -/
theorem c68_words (signed : Bool) (text : List Byte) (ht : ∀ b ∈ text, b < 128 ∧ (isAlnum b = true ∨ isPlainSep b = true)) :
    ∃ spans, Runs isAlnum text spans ∧ allTokens Utf8.machine signed text = .ok (spans.map fun s => ⟨(between text s.1 s.2).take 254, s.1, s.2⟩) := by
  rw [c68_ascii signed text (fun b hb => ⟨fun h0 => ?_, (ht b hb).1⟩)]
  · exact c65_words signed text (fun b hb => (ht b hb).2)
  · have := (ht b hb).2
    rw [h0] at this
    revert this
    decide

/-- **C68 (signed char).** If char is signed, any text ends up with the same tokens as with the ASCII tokenizer: the
scan reads only the text, and the tokens cover its ASCII letters and digits, up to a match that is left with nothing.

Missing: letters that are not ASCII, see `c68_violated_letters`, and char unsigned, see `c68_violated_overread`. -/
theorem c68_signed_partial (text : List Byte) (ht : ∀ b ∈ text, b ≠ 0) :
    allTokens Utf8.machine true text = allTokens Ascii.machine true text ∧ Gives65 (allTokens Utf8.machine true text) (CoversUntil text 0) := by
  have h : allTokens Utf8.machine true text = allTokens Ascii.machine true text := tokens68 true text ht (fun b _ => rfl) _ 0 (Nat.zero_le _)
  exact ⟨h, by rw [h]; exact c65_until_partial true text ht⟩

/-- The tokens, as bytes. -/
def toks68 (signed : Bool) (text : List Byte) : Option (List (List Byte × Int × Int)) :=
  match allTokens Utf8.machine signed text with
  | .ok ts => some (ts.map fun t => (t.text, t.start, t.stop))
  | _ => none

/-- If char is signed, letters that are not ASCII are taken for separators: of "naïve" "na" and "ve" are left. -/
theorem c68_violated_letters : toks68 true [110, 97, 195, 175, 118, 101] = some [([110, 97], 0, 2), ([118, 101], 4, 6)] := by decide +kernel

/-- If char is unsigned, a text that ends after the first byte of a character is read past its end. -/
theorem c68_violated_overread : allTokens Utf8.machine false [110, 111, 196] = .ub := by
  have h : (match allTokens Utf8.machine false [110, 111, 196] with
    | .ub => true
    | _ => false) = true := by decide +kernel
  revert h
  cases allTokens Utf8.machine false [110, 111, 196] with
  | ok x => intro h; cases h
  | raise x => intro h; cases h
  | ub => intro _; rfl

/-- If char is unsigned, the first byte of a character makes a space after it part of a word. -/
theorem c68_violated_space : toks68 false [97, 196, 32, 98] = some [([97, 196, 32, 98], 0, 4)] := by decide +kernel

/-- Properly written, and char unsigned: "naïve мир". -/
example : toks68 false [110, 97, 195, 175, 118, 101, 32, 208, 188, 208, 184, 209, 128] =
    some [([110, 97, 195, 175, 118, 101], 0, 6), ([208, 188, 208, 184, 209, 128], 7, 13)] := by decide +kernel

example : ∀ b ∈ "Dave's A.C.R.O. (at x@y.org)".toUTF8.toList, b ≠ 0 ∧ b < 128 := by decide +kernel

#print axioms c68_ascii
#print axioms c68_words
#print axioms c68_signed_partial
#print axioms c68_violated_letters
#print axioms c68_violated_overread
#print axioms c68_violated_space
end Ferret.Props

