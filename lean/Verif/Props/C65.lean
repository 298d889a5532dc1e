import Verif.Lemmas.ScanWords
import Verif.Lemmas.ScanAscii

/-!
C65: the standard tokenizer for ASCII covers a text.
-/

namespace Ferret.Props
open Ferret Ferret.Spec Ferret.Scan

/-- The tokens of a text are given and are as said. -/
def Gives65 (res : Res (List Scan.Token)) (P : List (List Byte × Nat × Nat) → Prop) : Prop :=
  ∃ toks, res = .ok toks ∧ (∀ t ∈ toks, 0 ≤ t.start ∧ 0 ≤ t.stop) ∧ P (toks.map fun t => (t.text, t.start.toNat, t.stop.toNat))

/-- **C65 (a scan).** Whatever the text, a scan from any offset ends, reads nothing past the text, and either finds
nothing, and then there are no letters or digits left, or gives a token of some bytes of the text, with no letters or
digits skipped before it, that fits in the buffer. -/
theorem c65_scan (signed : Bool) (text : List Byte) (ht : ∀ b ∈ text, b ≠ 0) (outSize q : Nat) (hq : q ≤ text.length) :
    (scan Ascii.machine signed text outSize q = .ok none ∧ NoWord text q text.length) ∨
    ∃ s e tok, scan Ascii.machine signed text outSize q = .ok (some ⟨(s : Nat), (e : Nat), tok⟩) ∧ q ≤ s ∧ s < e ∧ e ≤ text.length ∧ NoWord text q s ∧ tok.length ≤ outSize ∧
      ∃ k r, k + r ≤ e - s ∧ r ≤ 2 ∧ (let bs := (text.drop (s + k)).take (min (e - s - k - r) outSize); tok = bs ∨ tok = bs.filter fun b => decide (b ≠ 46)) := by
  rcases scan_good (outSize := outSize) (Ascii.cert signed) (fun b hb => ⟨ht b hb, rfl⟩) q hq with h | ⟨s, e, k, t, strip, h1, h2, h3, h4, h5, h6, h7, h8⟩
  · exact Or.inl h
  · refine Or.inr ⟨s, e, _, h8, h1, h2, h3, h4, ?_, k, t, by omega, h6, ?_⟩
    · have hl : ((text.drop (s + k)).take (min (e - s - k - t) outSize)).length ≤ outSize := by
        rw [List.length_take]; omega
      cases strip with
      | true => exact Nat.le_trans (List.length_filter_le _ _) hl
      | false => exact hl
    · cases strip with
      | true => exact Or.inr rfl
      | false => exact Or.inl rfl

/-- The offsets are not negative. -/
theorem nonneg65 {M : Machine} {signed : Bool} {entry ml : Nat} {lim : Lim} {known : Known} {text : List Byte} (C : Cert M signed entry ml lim known) (ht : InLim lim text) :
    ∀ (fuel q : Nat) toks, q ≤ text.length → tokens M signed text fuel q = .ok toks → ∀ t ∈ toks, 0 ≤ t.start ∧ 0 ≤ t.stop := by
  intro fuel
  induction fuel with
  | zero => intro q toks _ h; cases h
  | succ fuel ih =>
    intro q toks hq h
    unfold tokens at h
    rcases scan_good (outSize := 254) C ht q hq with ⟨h1, -⟩ | ⟨s, e, k, t, strip, h1, h2, h3, h4, h5, h6, h7, h8⟩
    · rw [h1, Res.ok_bind] at h
      cases h
      intro t ht
      cases ht
    · dsimp only at h8
      rw [h8, Res.ok_bind] at h
      dsimp only at h
      generalize (if strip = true then ((text.drop (s + k)).take (min (e - s - k - t) 254)).filter (fun b => decide (b ≠ 46)) else (text.drop (s + k)).take (min (e - s - k - t) 254)) = tok at h
      by_cases hz : tok.length = 0
      · rw [if_pos hz] at h
        cases h
        intro t ht
        cases ht
      · rw [if_neg hz] at h
        obtain ⟨ts, hts, hr⟩ := Res.bind_eq_ok.1 h
        cases hr
        intro x hx
        rcases List.mem_cons.1 hx with rfl | hx
        · exact ⟨Int.natCast_nonneg _, Int.natCast_nonneg _⟩
        · exact ih _ _ (by rw [Int.toNat_natCast]; exact h3) hts x hx

/-- **C65 (any text).** The tokens of any text come one after the other, each is of some bytes of the text, and no
letters or digits are between them or after the last, up to the first match that is left with nothing.

Missing: the rest of the text after such a match, see `c65_violated_ends`. -/
theorem c65_until_partial (signed : Bool) (text : List Byte) (ht : ∀ b ∈ text, b ≠ 0) :
    Gives65 (allTokens Ascii.machine signed text) (CoversUntil text 0) := by
  have hl : InLim Ascii.anyText text := fun b hb => ⟨ht b hb, rfl⟩
  obtain ⟨toks, h1, h2⟩ := tokens_until (Ascii.cert signed) hl (text.length + 1) 0 (Nat.zero_le _) (by omega)
  exact ⟨toks, h1, nonneg65 (Ascii.cert signed) hl _ _ _ (Nat.zero_le _) h1, h2⟩

/-- **C65 (texts without colons).** If there is no colon in a text, the tokens cover all of it: no letters or
digits are outside of the tokens, and no token is empty.

Missing: texts with colons, see `c65_violated_ends`. -/
theorem c65_covers_partial (signed : Bool) (text : List Byte) (ht : ∀ b ∈ text, b ≠ 0 ∧ b ≠ 58) :
    Gives65 (allTokens Ascii.machine signed text) (Covers text 0) := by
  have hl : InLim Ascii.plainText text := fun b hb => ⟨(ht b hb).1, decide_eq_true fun h => (ht b hb).2 (UInt8.toNat_inj.1 h)⟩
  obtain ⟨toks, h1, h2⟩ := tokens_cover (Ascii.certPlain signed) (Nat.le_refl _) hl (text.length + 1) 0 (Nat.zero_le _) (by omega)
  exact ⟨toks, h1, nonneg65 (Ascii.certPlain signed) hl _ _ _ (Nat.zero_le _) h1, h2⟩

/-- **C65 (words).** If a text is of letters, digits and plain separators, the tokens are exactly its maximal runs of
letters and digits, in order, with where they begin and end, each cut to 254 bytes. -/
theorem c65_words (signed : Bool) (text : List Byte) (ht : ∀ b ∈ text, isAlnum b = true ∨ isPlainSep b = true) :
    ∃ spans, Runs isAlnum text spans ∧ allTokens Ascii.machine signed text = .ok (spans.map fun s => ⟨(between text s.1 s.2).take 254, s.1, s.2⟩) := by
  have hsep : ∀ b : Byte, isPlainSep b = true → isAlnum b = false := by
    intro b hb
    have h : ∀ n : Nat, n < 256 → isPlainSep (UInt8.ofNat n) = true → isAlnum (UInt8.ofNat n) = false := by decide +kernel
    have := h b.toNat (UInt8.toNat_lt b)
    rw [UInt8.ofNat_toNat] at this
    exact this hb
  obtain ⟨spans, h1, h2, h3⟩ := tokens_words (Ascii.wordCert signed) hsep ht (text.length + 1) 0 (Nat.zero_le _) (by omega) (Or.inl rfl)
  exact ⟨spans, ⟨h1, fun i j => (h2 i j).trans ⟨fun h => h.1, fun h => ⟨h, Nat.zero_le _⟩⟩⟩, h3⟩

/-- What a text is tokenized to: texts and offsets. -/
def toks65 (text : String) : Option (List (String × Int × Int)) :=
  match allTokens Ascii.machine true text.toUTF8.toList with
  | .ok ts => some (ts.map fun t => (String.ofList (t.text.map fun b => Char.ofNat b.toNat), t.start, t.stop))
  | _ => none

/-- An empty match ends the tokens: all after it is lost. -/
theorem c65_violated_ends : toks65 "one file:///c foo bar" = some [("one", 0, 3)] := by decide +kernel

/-- A match that was given up leaves its last character cut off the token that is found instead. -/
theorem c65_violated_cut : toks65 "a.bc/x@y.com" = some [("a.bc/x@y.co", 0, 12)] := by decide +kernel

/-- A URL with a path loses the last character of the path. -/
theorem c65_violated_url : toks65 "http://www.google.com/results" = some [("www.google.com/result", 0, 29)] := by decide +kernel

example : toks65 "DBalmain's e-mail: (dave@x.org), A.C.R.O. 10.5" =
    some [("DBalmain", 0, 10), ("e-mail", 11, 17), ("dave@x.org", 20, 30), ("ACRO", 33, 40), ("10.5", 42, 46)] := by decide +kernel

example : ∀ b ∈ "DBalmain's e-mail (dave@x.org), A.C.R.O. 10.5".toUTF8.toList, b ≠ 0 ∧ b ≠ 58 := by decide +kernel

example : ∀ b ∈ "Hello, (new) world".toUTF8.toList, isAlnum b = true ∨ isPlainSep b = true := by decide +kernel

example : toks65 "Hello, (new) world" = some [("Hello", 0, 5), ("new", 8, 11), ("world", 13, 18)] := by decide +kernel

#print axioms c65_scan
#print axioms c65_until_partial
#print axioms c65_covers_partial
#print axioms c65_words
#print axioms c65_violated_ends
#print axioms c65_violated_cut
#print axioms c65_violated_url
end Ferret.Props
